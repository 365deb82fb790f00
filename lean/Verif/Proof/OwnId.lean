import Verif.Spec.OwnId
import Verif.Proof.MapData
import Verif.Proof.History
/-! With a lawful ID type every function is the one for `Id::Internal` with the IDs replaced. -/
set_option autoImplicit false

namespace Treena
variable {I T : Type} {ty : IdImpl I}

/-! ### Recording callbacks -/

/-- Replace both IDs of a pair. -/
def pairMap (g : Nat → I) (p : Nat × Nat) : I × I := (g p.1, g p.2)

theorem record_map {ι κ : Type} (g : ι → κ) (limit : Option Nat) (l : List ι) (i : ι) :
    Req.record limit (l.map g) (g i) = match Req.record limit l i with
      | .ok l' => .ok (l'.map g)
      | .error l' => .error (l'.map g) := by
  unfold Req.record
  by_cases h : limit = some l.length
  · simp [h]
  · simp [h]

/-- Two callbacks that do the same to states related by `G`. -/
def HookSim {S S' : Type} (ty : IdImpl I) (G : S → S') (hook : Forest.MapHook S) (hook' : Own.MapHook S' I) : Prop :=
  ∀ s a b, hook' (G s) (ty.wrap a) (ty.wrap b) = match hook s a b with
    | .ok s' => .ok (G s')
    | .error s' => .error (G s')

theorem record_sim (ty : IdImpl I) (limit : Option Nat) : HookSim ty (List.map (pairMap ty.wrap))
    (fun l a b => Req.record limit l (a, b)) (fun l a b => Req.record limit l (a, b)) := by
  intro l a b
  show Req.record limit (List.map (pairMap ty.wrap) l) (pairMap ty.wrap (a, b)) = _
  rw [record_map]
  dsimp only
  cases Req.record limit l (a, b) <;> rfl

namespace Own
variable {S S' : Type} {G : S → S'} {hook : Forest.MapHook S} {hook' : Own.MapHook S' I}

/-- on pairs of forest and captured state -/
def onSnd (G : S → S') (p : Forest T × S) : Forest T × S' := (p.1, G p.2)

theorem onForest_sim {α β : Type} {H : α → β} {m : M (Forest T) α} {m' : M (Forest T) β} (h : Comm idf H m m') :
    Comm (onSnd G) H (Forest.onForest m) (Forest.onForest m') :=
  Comm.zoom h (fun _ => rfl) fun _ _ => rfl

theorem comm_id {α σ : Type} (m : M σ α) : Comm idf idf m m := fun s => by cases m s <;> rfl

theorem callMap_sim (hs : HookSim ty G hook hook') (a b : Nat) :
    Comm (onSnd (T := T) G) idf (Forest.callMap hook a b) (Own.callMap hook' (ty.wrap a) (ty.wrap b)) := by
  rintro ⟨f, s⟩
  simp only [Forest.callMap, Own.callMap, onSnd, hs s a b]
  cases hook s a b <;> rfl

theorem callMap_sim' (hs : HookSim ty G hook hook') (a b : Nat) :
    Comm (onSnd (T := T) G) idf (Forest.callMap hook a b)
      (Forest.callMap (fun s a b => hook' s (ty.wrap a) (ty.wrap b)) a b) := by
  rintro ⟨f, s⟩
  simp only [Forest.callMap, onSnd, hs s a b]
  cases hook s a b <;> rfl

theorem cloneLoop_sim {τ : Type} (hs : HookSim ty G hook hook') (cap : Nat) (cl : T → Option T) (src : Forest.CloneSrc T τ)
    (inner : Nat) : ∀ (fuel cur : Nat) (tr : τ), Comm (onSnd G) idf (Forest.cloneLoop cap cl src hook inner fuel cur tr)
      (Forest.cloneLoop cap cl src (fun s a b => hook' s (ty.wrap a) (ty.wrap b)) inner fuel cur tr) := by
  intro fuel
  induction fuel with
  | zero => intro cur tr; exact Comm.throw _
  | succ fuel ih =>
    intro cur tr
    unfold Forest.cloneLoop
    refine Comm.bind (onForest_sim (comm_id _)) fun r => ?_
    obtain ⟨o, cur', tr'⟩ := r
    cases o with
    | none => exact Comm.pure (G := idf) _
    | some a => exact Comm.bind (callMap_sim' hs a cur') fun _ => ih _ _

theorem createRoot_sim (cap : Nat) (d : T) : Comm idf ty.wrap (Forest.createRoot cap d) (Own.createRoot ty cap d) := by
  intro f
  simp only [Own.createRoot, M.run_bind, idf]
  cases Forest.createRoot cap d f <;> rfl

theorem createInsert_sim (cap : Nat) (d : T) (dest : OwnInsertAs I) :
    Comm idf ty.wrap (Forest.createInsert cap d (dest.unwrap ty)) (Own.createInsert ty cap d dest) := by
  intro f
  simp only [Own.createInsert, Forest.createInsert, M.run_bind, idf]
  cases Forest.createInsertMomo cap d (dest.unwrap ty) f <;> rfl

variable (hty : ty.Lawful)
include hty

theorem wrap_inj {a b : Nat} : ty.wrap a = ty.wrap b ↔ a = b :=
  ⟨fun h => by rw [← hty.unwrap_wrap a, h, hty.unwrap_wrap], fun h => by rw [h]⟩

theorem cloneLocal_sim [DecidableEq I] (hs : HookSim ty G hook hook') (cap : Nat) (cl : T → Option T) (x : I) :
    Comm (onSnd G) ty.wrap (Forest.cloneLocalTreeWithIdMapping cap cl hook (ty.unwrap x))
      (Own.cloneLocalTreeWithIdMapping ty cap cl hook' x) := by
  unfold Forest.cloneLocalTreeWithIdMapping Own.cloneLocalTreeWithIdMapping
  refine Comm.bind (G := idf) (Comm.read fun p => (except_map_id _).symm) fun d => ?_
  refine Comm.bind (G := idf) (Comm.read fun p => (except_map_id _).symm) fun d => ?_
  refine Comm.bind (onForest_sim (createRoot_sim cap d)) fun root => ?_
  refine Comm.bind (G := idf) ?_ fun _ => ?_
  · have := callMap_sim (T := T) hs (ty.unwrap x) root
    rwa [hty.wrap_unwrap] at this
  refine Comm.bind (G := idf) (Comm.read fun p => (except_map_id _).symm) fun tr => ?_
  refine Comm.bind (G := idf) (Comm.read fun p => (except_map_id _).symm) fun r => ?_
  obtain ⟨_, tr⟩ := r
  simp only [hty.unwrap_wrap]
  refine Comm.bind (cloneLoop_sim hs cap cl _ _ _ root tr) fun r => ?_
  obtain ⟨cur, _⟩ := r
  exact Comm.ite (not_congr (wrap_inj hty).symm) (Comm.panic _) (Comm.pure _)

theorem cloneForeign_sim [DecidableEq I] (hs : HookSim ty G hook hook') (cap : Nat) (cl : T → Option T) (fsrc : Forest T)
    (x : I) : Comm (onSnd G) ty.wrap (Forest.cloneForeignTreeWithIdMapping cap cl hook fsrc (ty.unwrap x))
      (Own.cloneForeignTreeWithIdMapping ty cap cl hook' fsrc x) := by
  unfold Forest.cloneForeignTreeWithIdMapping Own.cloneForeignTreeWithIdMapping
  refine Comm.bind (G := idf) (Comm.read fun p => (except_map_id _).symm) fun d => ?_
  refine Comm.bind (G := idf) (Comm.read fun p => (except_map_id _).symm) fun d => ?_
  refine Comm.bind (onForest_sim (createRoot_sim cap d)) fun root => ?_
  refine Comm.bind (G := idf) ?_ fun _ => ?_
  · have := callMap_sim (T := T) hs (ty.unwrap x) root
    rwa [hty.wrap_unwrap] at this
  refine Comm.bind (G := idf) (Comm.read fun p => (except_map_id _).symm) fun tr => ?_
  refine Comm.bind (G := idf) (Comm.read fun p => (except_map_id _).symm) fun r => ?_
  obtain ⟨_, tr⟩ := r
  simp only [hty.unwrap_wrap]
  refine Comm.bind (cloneLoop_sim hs cap cl _ _ _ root tr) fun r => ?_
  obtain ⟨cur, tr⟩ := r
  refine Comm.ite (not_congr (wrap_inj hty).symm) (Comm.panic _) ?_
  refine Comm.bind (G := idf) (Comm.read fun p => (except_map_id _).symm) fun r => ?_
  obtain ⟨last, _⟩ := r
  exact Comm.ite Iff.rfl (Comm.panic _) (Comm.pure _)

end Own

/-! ### Iterators -/

theorem own_node (f : Forest T) (x : I) : Own.node ty f x = if f.isAlive (ty.unwrap x) then some x else none := by
  unfold Own.node Own.isAlive
  cases f.isAlive (ty.unwrap x) <;> rfl

theorem own_iterNew {σ : Type} (f : Forest T) (x : I) (mk : Nat → Hier → R σ) :
    Own.iterNew ty f x mk = f.iterNew (ty.unwrap x) mk := by
  unfold Own.iterNew Forest.iterNew Forest.nodeOrPanic Forest.node
  rw [own_node]
  cases f.isAlive (ty.unwrap x) <;> rfl

/-- Replace what an iterator emits. -/
def mapItem {ι κ σ : Type} (g : ι → κ) : R (Option ι × σ) → R (Option κ × σ)
  | .error e => .error e
  | .ok (o, st) => .ok (o.map g, st)

theorem own_emit (hty : ty.Lawful) {ι κ σ : Type} (f : Forest T) (idOf : ι → Nat) (item : ι → κ) (r : R (Option ι × σ)) :
    Own.emit ty f idOf item r = mapItem item (f.emit idOf r) := by
  unfold Own.emit Forest.emit Own.nodeAt Forest.nodeAt Forest.node
  rcases r with e | ⟨_ | i, st⟩
  · rfl
  · rfl
  · simp only [own_node, hty.unwrap_wrap]
    cases f.isAlive (idOf i) <;> rfl

theorem drive_map {ι κ σ : Type} {g : ι → κ} {next back : σ → R (Option ι × σ)} {next' back' : σ → R (Option κ × σ)}
    (hn : ∀ st, next' st = mapItem g (next st)) (hb : ∀ st, back' st = mapItem g (back st)) (ds : List Dir) :
    ∀ st, drive next' back' st ds = (drive next back st ds).map fun l => l.map fun o => o.map g := by
  induction ds with
  | nil => intro st; rfl
  | cons d ds ih =>
    intro st
    have key : ∀ r : R (Option ι × σ), (match mapItem g r with
        | .error e => .error e
        | .ok (o, st') => match drive next' back' st' ds with
          | .error e => .error e
          | .ok os => .ok (o :: os) : R (List (Option κ))) = Except.map (fun l => l.map fun o => o.map g) (match r with
        | .error e => .error e
        | .ok (o, st') => match drive next back st' ds with
          | .error e => .error e
          | .ok os => .ok (o :: os) : R (List (Option ι))) := by
      intro r
      rcases r with e | ⟨o, st'⟩
      · rfl
      · simp only [mapItem, ih]
        cases drive next back st' ds <;> rfl
    cases d
    · simp only [drive, hn]; exact key _
    · simp only [drive, hb]; exact key _

theorem pull_map {ι κ σ : Type} {g : ι → κ} {next : σ → R (Option ι × σ)} {next' : σ → R (Option κ × σ)}
    (hn : ∀ st, next' st = mapItem g (next st)) (n : Nat) :
    ∀ st, pull next' n st = (pull next n st).map fun l => l.map fun o => o.map g := by
  induction n with
  | zero => intro st; rfl
  | succ n ih =>
    intro st
    simp only [pull, hn]
    rcases next st with e | ⟨o, st'⟩
    · rfl
    · simp only [mapItem, ih]
      cases pull next n st' <;> rfl

theorem iterate_map {ι κ σ : Type} {g : ι → κ} {next back : σ → R (Option ι × σ)} {next' back' : σ → R (Option κ × σ)}
    (hn : ∀ st, next' st = mapItem g (next st)) (hb : ∀ st, back' st = mapItem g (back st)) (start : R σ) (ds : List Dir) :
    Req.iterate next' back' start ds = (Req.iterate next back start ds).map fun l => l.map fun o => o.map g := by
  cases start with
  | error e => rfl
  | ok st => exact drive_map hn hb ds st

theorem iterate1_map {ι κ σ : Type} {g : ι → κ} {next : σ → R (Option ι × σ)} {next' : σ → R (Option κ × σ)}
    (hn : ∀ st, next' st = mapItem g (next st)) (start : R σ) (n : Nat) :
    Req.iterate1 next' start n = (Req.iterate1 next start n).map fun l => l.map fun o => o.map g := by
  cases start with
  | error e => rfl
  | ok st => exact pull_map hn n st

theorem skipped_map {ι κ σ : Type} {g : ι → κ} {next : σ → R (Option ι × σ)} {next' : σ → R (Option κ × σ)}
    (hn : ∀ st, next' st = mapItem g (next st)) (start : R σ) :
    Forest.skipped next' start = Forest.skipped next start := by
  cases start with
  | error e => rfl
  | ok st =>
    simp only [Forest.skipped, hn]
    rcases next st with e | ⟨o, st'⟩ <;> rfl

/-! ### Links -/

theorem own_parentId (f : Forest T) (x : I) :
    Own.parentId ty f x = (f.parentId (ty.unwrap x)).map fun o => o.map ty.wrap := by
  unfold Own.parentId Forest.parentId Own.nbr Own.wrapLink
  cases f.nbr (ty.unwrap x) <;> rfl

theorem own_linkOf (f : Forest T) (x : I) (k : Link) :
    OwnReq.linkOf ty f x k = (Req.linkOf f (ty.unwrap x) k).map fun o => o.map ty.wrap := by
  cases k
  · exact own_parentId f x
  · simp only [OwnReq.linkOf, Req.linkOf, Own.nextSiblingId, Forest.nextSiblingId, Own.nbr, Own.wrapLink]
    cases f.nbr (ty.unwrap x) <;> rfl
  · simp only [OwnReq.linkOf, Req.linkOf, Own.prevSiblingId, Forest.prevSiblingId, Own.nbr, Own.wrapLink]
    cases f.nbr (ty.unwrap x) <;> rfl
  · simp only [OwnReq.linkOf, Req.linkOf, Own.firstChildId, Forest.firstChildId, Own.nbr, Own.wrapLink]
    cases f.nbr (ty.unwrap x) <;> rfl
  · simp only [OwnReq.linkOf, Req.linkOf, Own.lastChildId, Forest.lastChildId, Own.nbr, Own.wrapLink]
    cases f.nbr (ty.unwrap x) <;> rfl

theorem own_ends (f : Forest T) (x : I) : Own.firstLastChildId ty f x =
    (f.firstLastChildId (ty.unwrap x)).map fun o => o.map fun p => (ty.wrap p.1, ty.wrap p.2) := by
  unfold Own.firstLastChildId Forest.firstLastChildId Own.nbr
  cases f.nbr (ty.unwrap x) <;> rfl

/-! ### Builders -/

namespace Own

/-- The builder with IDs replaced. -/
def ofNest (ty : IdImpl I) (b : Treena.Nest T) : Nest I T := ⟨b.forest, ty.wrap b.root, b.current.map ty.wrap⟩
/-- The builder with IDs replaced. -/
def ofChain (ty : IdImpl I) (b : Treena.Chain T) : Chain I T := ⟨b.forest, ty.wrap b.root, ty.wrap b.current⟩

theorem nest_onForest {α β : Type} {H : α → β} {m : M (Forest T) α} {m' : M (Forest T) β} (h : Comm idf H m m') :
    Comm (ofNest ty) H (Treena.Nest.onForest m) (Nest.onForest m') :=
  Comm.zoom h (fun _ => rfl) fun _ _ => rfl

theorem chain_onForest {α β : Type} {H : α → β} {m : M (Forest T) α} {m' : M (Forest T) β} (h : Comm idf H m m') :
    Comm (ofChain ty) H (Treena.Chain.onForest m) (Chain.onForest m') :=
  Comm.zoom h (fun _ => rfl) fun _ _ => rfl

variable (hty : ty.Lawful)
include hty

theorem nest_place (x : Nat) : Comm (ofNest (T := T) ty) idf (Treena.Nest.place x) (Nest.place ty (ty.wrap x)) := by
  have key : ∀ (dest : InsertAs) (dest' : OwnInsertAs I), dest'.unwrap ty = dest → Comm (ofNest (T := T) ty) idf
      (do let r ← Treena.Nest.onForest (Forest.insert x dest); Treena.Nest.expectOk r Treena.Nest.addMsg)
      (do let r ← Nest.onForest (Own.insert ty (ty.wrap x) dest'); Treena.Nest.expectOk r Treena.Nest.addMsg) := by
    intro dest dest' e
    subst e
    refine Comm.bind (G := idf) (nest_onForest ?_) fun r => ?_
    · unfold Own.insert Forest.insert
      rw [hty.unwrap_wrap]
      exact comm_id _
    · cases r with
      | ok u => exact Comm.pure (G := idf) _
      | error e => exact Comm.panic _
  intro b
  obtain ⟨f, root, cur⟩ := b
  cases cur with
  | none =>
    exact key (.firstChildOf root) (.firstChildOf (ty.wrap root)) (by simp [OwnInsertAs.unwrap, hty.unwrap_wrap])
      ⟨f, root, none⟩
  | some c =>
    exact key (.nextSiblingOf c) (.nextSiblingOf (ty.wrap c)) (by simp [OwnInsertAs.unwrap, hty.unwrap_wrap])
      ⟨f, root, some c⟩

theorem nest_addChild (cap : Nat) (d : T) : Comm (ofNest ty) idf (Treena.Nest.addChild cap d) (Nest.addChild ty cap d) := by
  unfold Treena.Nest.addChild Nest.addChild
  refine Comm.bind (nest_onForest (createRoot_sim cap d)) fun x => ?_
  refine Comm.bind (nest_place hty x) fun _ => ?_
  exact Comm.modify fun b => rfl

theorem nest_createTree (cap : Nat) (d : T) {m : M (Treena.Nest T) Unit} {m' : M (Nest I T) Unit}
    (h : Comm (ofNest ty) idf m m') : Comm (ofNest ty) idf (Treena.Nest.createTree cap d m) (Nest.createTree ty cap d m') := by
  unfold Treena.Nest.createTree Nest.createTree
  refine Comm.bind (nest_addChild hty cap d) fun _ => ?_
  refine Comm.bind (G := ty.wrap) (Comm.read fun b => ?_) fun x => ?_
  · obtain ⟨f, root, cur⟩ := b
    cases cur <;> rfl
  refine Comm.bind (Comm.modify fun b => rfl) fun _ => ?_
  refine Comm.bind (G := ty.wrap) (Comm.read fun b => rfl) fun o => ?_
  refine Comm.bind (Comm.modify fun b => rfl) fun _ => ?_
  refine Comm.bind h fun _ => ?_
  exact Comm.bind (Comm.modify fun b => rfl) fun _ => Comm.modify fun b => rfl

mutual
theorem nest_exec (cap : Nat) : ∀ c : NestCall T, Comm (ofNest ty) idf (NestCall.exec cap c) (Nest.exec ty cap c)
  | .addChild d => by unfold NestCall.exec Nest.exec; exact nest_addChild hty cap d
  | .createTree d cs => by unfold NestCall.exec Nest.exec; exact nest_createTree hty cap d (nest_execL cap cs)
  | .boom => by unfold NestCall.exec Nest.exec; exact Comm.panic _
theorem nest_execL (cap : Nat) : ∀ cs : List (NestCall T), Comm (ofNest ty) idf (NestCall.execL cap cs) (Nest.execL ty cap cs)
  | [] => by unfold NestCall.execL Nest.execL; exact Comm.pure (G := idf) _
  | c :: cs => by
    unfold NestCall.execL Nest.execL
    exact Comm.bind (nest_exec cap c) fun _ => nest_execL cap cs
end

theorem nestBuild_sim (cap : Nat) (d : T) (cs : List (NestCall T)) :
    Comm idf ty.wrap (Treena.nestBuild cap d cs) (Own.nestBuild ty cap d cs) := by
  intro f
  unfold Treena.nestBuild Own.nestBuild Treena.Nest.new Nest.new
  rw [createRoot_sim cap d f]
  cases Forest.createRoot cap d f with
  | fail e f' => rfl
  | ok x f' =>
    have h := nest_execL hty cap cs ⟨f', x, none⟩
    simp only [Res.map2, idf]
    change (match Nest.execL ty cap cs (ofNest ty ⟨f', x, none⟩) with
      | .ok () b' => .ok b'.root b'.forest
      | .fail e b' => .fail e b'.forest : Res (Forest T) I) = _
    rw [h]
    cases NestCall.execL cap cs ⟨f', x, none⟩ <;> rfl

theorem chain_new (cap : Nat) (d : T) {cur : I} {c : Nat} (hc : cur = ty.wrap c) (mk : Nat → InsertAs)
    (mk' : I → OwnInsertAs I) (hmk : ∀ i, (mk' i).unwrap ty = mk (ty.unwrap i)) : Comm (ofChain ty) idf
    (do
      let new ← Treena.Chain.onForest (Forest.createInsert cap d (mk c))
      M.modify fun b => { b with current := new } : M (Treena.Chain T) Unit)
    (do
      let new ← Chain.onForest (createInsert ty cap d (mk' cur))
      M.modify fun b => { b with current := new } : M (Chain I T) Unit) := by
  subst hc
  have := createInsert_sim (ty := ty) cap d (mk' (ty.wrap c))
  rw [hmk, hty.unwrap_wrap] at this
  exact Comm.bind (chain_onForest this) fun x => Comm.modify fun b => rfl

theorem chain_parentOf (b : Treena.Chain T) :
    Chain.parentOfCurrent ty (ofChain ty b) = b.parentOfCurrent.map fun o => o.map ty.wrap := by
  unfold Chain.parentOfCurrent Treena.Chain.parentOfCurrent Forest.node
  simp only [own_node, ofChain, hty.unwrap_wrap]
  cases b.forest.isAlive b.current with
  | false => rfl
  | true =>
    simp only [if_true, expect, Bool.not_true, Bool.false_eq_true, if_false]
    rw [own_parentId, hty.unwrap_wrap]

theorem chain_exec (cap : Nat) (c : ChainCall T) : Comm (ofChain ty) idf (ChainCall.exec cap c) (Chain.exec ty cap c) := by
  cases c with
  | child d => exact fun b => chain_new hty cap d (c := b.current) rfl .lastChildOf .lastChildOf (fun _ => rfl) b
  | sibling d => exact fun b => chain_new hty cap d (c := b.current) rfl .nextSiblingOf .nextSiblingOf (fun _ => rfl) b
  | parent =>
    unfold ChainCall.exec Chain.exec Chain.parent Treena.Chain.parent
    refine Comm.bind (Comm.read fun b => chain_parentOf hty b) fun p => ?_
    refine Comm.bind (G := ty.wrap) (Comm.read fun b => ?_) fun x => ?_
    · cases p <;> rfl
    · exact Comm.modify fun b => rfl
  | tryParent =>
    unfold ChainCall.exec Chain.exec Chain.tryParent Treena.Chain.tryParent
    refine Comm.bind (G := idf) ?_ fun _ => Comm.pure (G := idf) _
    refine Comm.bind (Comm.read fun b => chain_parentOf hty b) fun p => ?_
    cases p with
    | none => exact Comm.pure (G := idf) _
    | some x => exact Comm.bind (Comm.modify fun b => rfl) fun _ => Comm.pure (G := idf) _

theorem chain_execL (cap : Nat) : ∀ cs : List (ChainCall T), Comm (ofChain ty) idf (ChainCall.execL cap cs) (Chain.execL ty cap cs)
  | [] => Comm.pure (G := idf) _
  | c :: cs => by
    unfold ChainCall.execL Chain.execL
    exact Comm.bind (chain_exec hty cap c) fun _ => chain_execL cap cs

theorem chainBuild_sim (cap : Nat) (d : T) (cs : List (ChainCall T)) :
    Comm idf ty.wrap (Treena.chainBuild cap d cs) (Own.chainBuild ty cap d cs) := by
  intro f
  unfold Treena.chainBuild Own.chainBuild Treena.Chain.new Chain.new
  rw [createRoot_sim cap d f]
  cases Forest.createRoot cap d f with
  | fail e f' => rfl
  | ok x f' =>
    have h := chain_execL hty cap cs ⟨f', x, x⟩
    simp only [Res.map2, idf]
    change (match Chain.execL ty cap cs (ofChain ty ⟨f', x, x⟩) with
      | .ok () b' => .ok b'.root b'.forest
      | .fail e b' => .fail e b'.forest : Res (Forest T) I) = _
    rw [h]
    cases ChainCall.execL cap cs ⟨f', x, x⟩ <;> rfl

end Own

/-! ### Answers -/

/-- The result of a call with the IDs of the answer replaced. -/
def outerPair (g : Nat → I) (r : Forest T × Ans T) : Forest T × OwnAns I T := (r.1, r.2.outer g)

theorem outer_ofFail (g : Nat → I) (e : Fail) : (Ans.ofFail e : Ans T).outer g = OwnAns.ofFail e := by cases e <;> rfl

theorem outer_ofR {α β : Type} (g : Nat → I) {k : α → Ans T} {k' : β → OwnAns I T} {H : α → β}
    (hk : ∀ a, k' (H a) = (k a).outer g) (r : R α) : OwnAns.ofR k' (r.map H) = (Ans.ofR k r).outer g := by
  cases r with
  | error e => exact (outer_ofFail g e).symm
  | ok a => exact hk a

theorem outer_ofRes {α β : Type} (g : Nat → I) {k : α → Ans T} {k' : β → OwnAns I T} {H : α → β}
    (hk : ∀ a, k' (H a) = (k a).outer g) {m : M (Forest T) α} {m' : M (Forest T) β} (h : Comm idf H m m') (f : Forest T) :
    OwnAns.ofRes k' (m' f) = outerPair g (Ans.ofRes k (m f)) := by
  rw [show m' f = m' (idf f) from rfl, h f]
  cases m f with
  | fail e f' => simp [Res.map2, OwnAns.ofRes, Ans.ofRes, outerPair, outer_ofFail]
  | ok a f' => simp [Res.map2, OwnAns.ofRes, Ans.ofRes, outerPair, hk]

theorem outer_ofResS {α β S S' : Type} (g : Nat → I) {k : α → S → Ans T} {k' : β → S' → OwnAns I T} {H : α → β} {G : S → S'}
    (hk : ∀ a s, k' (H a) (G s) = (k a s).outer g) {m : M (Forest T × S) α} {m' : M (Forest T × S') β}
    (h : Comm (Own.onSnd G) H m m') (f : Forest T) (s : S) :
    OwnAns.ofResS k' (m' (f, G s)) = outerPair g (Ans.ofResS k (m (f, s))) := by
  rw [show m' (f, G s) = m' (Own.onSnd G (f, s)) from rfl, h (f, s)]
  cases m (f, s) with
  | fail e p => obtain ⟨f', s'⟩ := p; simp [Res.map2, OwnAns.ofResS, Ans.ofResS, outerPair, outer_ofFail, Own.onSnd]
  | ok a p => obtain ⟨f', s'⟩ := p; simp [Res.map2, OwnAns.ofResS, Ans.ofResS, outerPair, hk, Own.onSnd]

theorem outer_ofExcept (g : Nat → I) (r : Except StructureError Unit) :
    (OwnAns.ofExcept (idf r) : OwnAns I T) = (Ans.ofExcept r).outer g := by cases r <;> rfl

theorem onSnd_id {S α : Type} {m : M (Forest T × S) α} : Comm (Own.onSnd idf) idf m m := fun s => by
  show m s = _
  cases m s <;> rfl

theorem own_ev (ty : IdImpl I) (e : Ev Nat) : Own.ev ty e = e.replace ty.wrap := by cases e <;> rfl

theorem own_nodeAt (hty : ty.Lawful) (f : Forest T) (y : Nat) : Own.nodeAt ty f (ty.wrap y) = (f.nodeAt y).map ty.wrap := by
  unfold Own.nodeAt Forest.nodeAt Forest.node
  rw [own_node, hty.unwrap_wrap]
  cases f.isAlive y <;> rfl

theorem own_nodeData (hty : ty.Lawful) (f : Forest T) (y : Nat) : Own.nodeData ty f (ty.wrap y) = f.nodeData y := by
  unfold Own.nodeData Forest.nodeData Own.getData
  rw [hty.unwrap_wrap]

theorem own_viaNode (hty : ty.Lawful) (f : Forest T) (r : R (Option Nat)) :
    Own.viaNode ty f (r.map fun o => o.map ty.wrap) = (f.viaNode r).map fun o => o.map ty.wrap := by
  match r with
  | .error e => rfl
  | .ok none => rfl
  | .ok (some y) =>
    simp only [Own.viaNode, Forest.viaNode, Except.map, Option.map_some, own_nodeAt hty]
    cases f.nodeAt y <;> rfl

theorem own_nearOf (hty : ty.Lawful) (f : Forest T) (x : I) (k : Link) :
    OwnReq.nearOf ty f x k = (Req.nearOf f (ty.unwrap x) k).map fun o => o.map fun p => (ty.wrap p.1, p.2) := by
  unfold OwnReq.nearOf Req.nearOf
  rw [own_linkOf, own_viaNode hty]
  match f.viaNode (Req.linkOf f (ty.unwrap x) k) with
  | .error e => rfl
  | .ok none => rfl
  | .ok (some y) =>
    simp only [Except.map, Option.map_some, own_nodeData hty]
    cases f.nodeData y <;> rfl

theorem own_nearEndsOf (hty : ty.Lawful) (f : Forest T) (x : I) :
    OwnReq.nearEndsOf ty f x =
      (Req.nearEndsOf f (ty.unwrap x)).map fun o => o.map fun p => ((ty.wrap p.1.1, p.1.2), ty.wrap p.2.1, p.2.2) := by
  unfold OwnReq.nearEndsOf Req.nearEndsOf Own.firstLastChild Forest.firstLastChild
  rw [own_ends]
  match f.firstLastChildId (ty.unwrap x) with
  | .error e => rfl
  | .ok none => rfl
  | .ok (some (y, z)) =>
    simp only [Except.map, Option.map_some, own_nodeAt hty, Forest.nodeAt, Forest.node]
    cases f.isAlive y with
    | false => rfl
    | true =>
      simp only [Bool.not_true, Bool.false_eq_true, if_false, expect]
      cases f.isAlive z with
      | false => rfl
      | true =>
        simp only [Bool.not_true, Bool.false_eq_true, if_false, own_nodeData hty]
        cases f.nodeData y with
        | error e => rfl
        | ok d => cases f.nodeData z <;> rfl

/-- C76 for one call. -/
theorem own_exec [DecidableEq I] (hty : ty.Lawful) (cap um : Nat) (f : Forest T) (q : OwnReq I T) :
    q.exec ty cap um f = outerPair ty.wrap ((q.inner ty.unwrap).exec cap um f) := by
  have hid : ∀ {α : Type} {k : α → Ans T} {k' : α → OwnAns I T}, (∀ a, k' a = (k a).outer ty.wrap) →
      ∀ (m : M (Forest T) α), OwnAns.ofRes k' (m f) = outerPair ty.wrap (Ans.ofRes k (m f)) :=
    fun hk m => outer_ofRes ty.wrap (H := idf) hk (Own.comm_id m) f
  have hemit : ∀ {ι κ σ : Type} (idOf : ι → Nat) (item : ι → κ) (r : R (Option ι × σ)),
      Own.emit ty f idOf item r = mapItem item (f.emit idOf r) := fun idOf item r => own_emit hty f idOf item r
  have hanc : ∀ st, Own.ancestorsNext ty f st = mapItem ty.wrap (f.ancestorsNext st) := fun st => hemit _ _ _
  have hsn : ∀ st, Own.siblingsNext ty f st = mapItem ty.wrap (f.siblingsNext st) := fun st => hemit _ _ _
  have hsb : ∀ st, Own.siblingsNextBack ty f st = mapItem ty.wrap (f.siblingsNextBack st) := fun st => hemit _ _ _
  cases q with
  | alive x =>
    simp only [OwnReq.exec, OwnReq.inner, Req.exec, own_node, outerPair, Forest.node]
    cases f.isAlive (ty.unwrap x) <;> rfl
  | near x k =>
    simp only [OwnReq.exec, OwnReq.inner, Req.exec, own_node, outerPair]
    cases f.isAlive (ty.unwrap x) with
    | false => rfl
    | true =>
      simp only [if_true]
      rw [own_nearOf hty]
      exact congrArg (Prod.mk f) (outer_ofR ty.wrap (k := .near) (k' := .near) (fun a => rfl) _)
  | nearEnds x =>
    simp only [OwnReq.exec, OwnReq.inner, Req.exec, own_node, outerPair]
    cases f.isAlive (ty.unwrap x) with
    | false => rfl
    | true =>
      simp only [if_true]
      rw [own_nearEndsOf hty]
      exact congrArg (Prod.mk f) (outer_ofR ty.wrap (k := .nearEnds) (k' := .nearEnds) (fun a => rfl) _)
  | data x => rfl
  | link x k =>
    simp only [OwnReq.exec, OwnReq.inner, Req.exec, own_node, outerPair]
    cases f.isAlive (ty.unwrap x) with
    | false => rfl
    | true =>
      simp only [if_true]
      rw [own_linkOf]
      exact congrArg (Prod.mk f) (outer_ofR ty.wrap (k := .link) (k' := .link) (fun a => rfl) _)
  | ends x =>
    simp only [OwnReq.exec, OwnReq.inner, Req.exec, own_node, outerPair]
    cases f.isAlive (ty.unwrap x) with
    | false => rfl
    | true =>
      simp only [if_true]
      rw [own_ends]
      exact congrArg (Prod.mk f) (outer_ofR ty.wrap (k := .ends) (k' := .ends) (fun a => rfl) _)
  | dft x ds =>
    simp only [OwnReq.exec, OwnReq.inner, Req.exec, outerPair]
    rw [Own.depthFirstTraverse, own_iterNew,
      iterate_map (g := Ev.replace ty.wrap) (next := f.dftNext) (back := f.dftNextBack)]
    · exact congrArg (Prod.mk f) (outer_ofR ty.wrap (k := .events) (k' := .events) (fun a => rfl) _)
    · intro st; rw [← funext (own_ev ty)]; exact hemit _ _ _
    · intro st; rw [← funext (own_ev ty)]; exact hemit _ _ _
  | shallow x max ds =>
    simp only [OwnReq.exec, OwnReq.inner, Req.exec, outerPair]
    rw [Own.shallowDepthFirstTraverse, own_iterNew,
      iterate_map (g := fun i : Ev Nat × Nat => (i.1.replace ty.wrap, i.2)) (next := f.shallowNext) (back := f.shallowNextBack)]
    · exact congrArg (Prod.mk f) (outer_ofR ty.wrap (k := .devents) (k' := .devents) (fun a => rfl) _)
    · intro st; rw [← funext (own_ev ty)]; exact hemit _ _ _
    · intro st; rw [← funext (own_ev ty)]; exact hemit _ _ _
  | bft x n =>
    simp only [OwnReq.exec, OwnReq.inner, Req.exec, outerPair]
    rw [Own.breadthFirstTraverse, own_iterNew, iterate1_map (next' := Own.bftNext ty um f) (next := f.bftNext um) (fun st => hemit _ _ _)]
    exact congrArg (Prod.mk f) (outer_ofR ty.wrap (k := .levels) (k' := .levels) (fun a => rfl) _)
  | abft x n =>
    simp only [OwnReq.exec, OwnReq.inner, Req.exec, outerPair]
    rw [Own.allocatingBreadthFirstTraverse, own_iterNew, iterate1_map (next' := Own.abftNext ty f) (next := f.abftNext) (fun st => hemit _ _ _)]
    exact congrArg (Prod.mk f) (outer_ofR ty.wrap (k := .levels) (k' := .levels) (fun a => rfl) _)
  | ancestors x self n =>
    simp only [OwnReq.exec, OwnReq.inner, Req.exec, outerPair]
    rw [Own.ancestors, Own.ancestorsOrSelf, own_iterNew, skipped_map hanc, iterate1_map hanc]
    exact congrArg (Prod.mk f) (outer_ofR ty.wrap (k := .nodes) (k' := .nodes) (fun a => rfl) _)
  | row x k ds =>
    simp only [OwnReq.exec, OwnReq.inner, Req.exec, outerPair]
    have : OwnReq.rowOf ty f x k = Req.rowOf f (ty.unwrap x) k := by
      cases k
      · exact own_iterNew _ _ _
      · exact (skipped_map hsn _).trans (congrArg _ (own_iterNew _ _ _))
      · exact own_iterNew _ _ _
      · exact (skipped_map hsb _).trans (congrArg _ (own_iterNew _ _ _))
      · exact own_iterNew _ _ _
    rw [this, iterate_map hsn hsb]
    exact congrArg (Prod.mk f) (outer_ofR ty.wrap (k := .nodes) (k' := .nodes) (fun a => rfl) _)
  | createRoot d => exact outer_ofRes ty.wrap (k := .id) (k' := .id) (fun a => rfl) (Own.createRoot_sim cap d) f
  | createInsert d dest =>
    cases dest <;> exact outer_ofRes ty.wrap (k := .id) (k' := .id) (fun a => rfl) (Own.createInsert_sim cap d _) f
  | setData x v => exact hid (k := .flag) (k' := .flag) (fun a => rfl) (Forest.setData (ty.unwrap x) v)
  | insert x dest =>
    cases dest <;> exact hid (fun a => outer_ofExcept ty.wrap a) (Forest.insert (ty.unwrap x) _)
  | detach x => exact hid (k := fun _ => .done) (k' := fun _ => .done) (fun a => rfl) (Forest.detach (ty.unwrap x))
  | detachSingle x => exact hid (fun a => outer_ofExcept ty.wrap a) (Forest.detachSingle (ty.unwrap x))
  | drop x => exact hid (k := fun _ => .done) (k' := fun _ => .done) (fun a => rfl) (Forest.remove (ty.unwrap x))
  | dup x cl =>
    refine outer_ofRes ty.wrap (k := .id) (k' := .id) (fun a => rfl) (m := Forest.cloneLocalTree cap cl (ty.unwrap x)) ?_ f
    intro g
    have := Own.cloneLocal_sim (G := fun u : Unit => u) (hook := fun s _ _ => .ok s) (hook' := fun s _ _ => .ok s) hty
      (fun _ _ _ => rfl) cap cl x (g, ())
    unfold Own.cloneLocalTree Forest.cloneLocalTree Forest.noHook
    have he : Own.onSnd (fun u : Unit => u) (g, ()) = (g, ()) := rfl
    rw [he] at this
    rw [show idf g = g from rfl, this]
    cases Forest.cloneLocalTreeWithIdMapping cap cl (fun s _ _ => .ok s) (ty.unwrap x) (g, ()) <;> rfl
  | remove x limit =>
    exact outer_ofResS ty.wrap (G := idf) (H := idf) (fun a s => rfl) (onSnd_id (m := Forest.removeHooked _ (ty.unwrap x))) f []
  | removeSafe x limit =>
    exact outer_ofResS ty.wrap (G := idf) (H := idf) (fun a s => rfl)
      (onSnd_id (m := Forest.removeHookedPanicSafe _ (ty.unwrap x))) f []
  | copy x cl limit =>
    exact outer_ofResS ty.wrap (G := List.map (pairMap ty.wrap)) (fun a s => rfl)
      (Own.cloneLocal_sim hty (record_sim ty limit) cap cl x) f []
  | nodeCreate self d dest =>
    simp only [OwnReq.exec, OwnReq.inner, Req.exec, own_node]
    cases f.isAlive (ty.unwrap self) with
    | false => rfl
    | true => cases dest <;> exact outer_ofRes ty.wrap (k := .id) (k' := .id) (fun a => rfl) (Own.createInsert_sim cap d _) f
  | tryAdopt self x dest =>
    simp only [OwnReq.exec, OwnReq.inner, Req.exec, own_node]
    cases f.isAlive (ty.unwrap self) with
    | false => rfl
    | true => exact hid (fun a => outer_ofExcept ty.wrap a) (NodeMut.tryAdopt (ty.unwrap self) (ty.unwrap x) dest)
  | adopt self x dest =>
    simp only [OwnReq.exec, OwnReq.inner, Req.exec, own_node]
    cases f.isAlive (ty.unwrap self) with
    | false => rfl
    | true => exact hid (k := fun _ => .done) (k' := fun _ => .done) (fun a => rfl) (NodeMut.adopt (ty.unwrap self) (ty.unwrap x) dest)
  | nest d calls => exact outer_ofRes ty.wrap (k := .id) (k' := .id) (fun a => rfl) (Own.nestBuild_sim hty cap d calls) f
  | chain d calls => exact outer_ofRes ty.wrap (k := .id) (k' := .id) (fun a => rfl) (Own.chainBuild_sim hty cap d calls) f
  | print x pieces =>
    simp only [OwnReq.exec, OwnReq.inner, Req.exec, outerPair, Own.debugPrint, Forest.debugPrint, own_node, Forest.node]
    cases f.isAlive (ty.unwrap x) with
    | false => rfl
    | true =>
      simp only [if_true, expect, Bool.not_true, Bool.false_eq_true, if_false]
      congr 1
      generalize DebugPrint.inner _ _ _ _ _ = r
      cases r with
      | ok a w => rfl
      | err w => rfl
      | fail e w => exact (outer_ofFail _ _).symm

/-! ### Any ID type -/

namespace Own
variable {Q : Forest T → Forest T → Prop} {cap : Nat}

/-- On the forest of a builder. -/
def OnNest (Q : Forest T → Forest T → Prop) (p q : Nest I T) : Prop := Q p.forest q.forest
theorem OnNest.ord (hQ : PreOrd Q) : PreOrd (OnNest (I := I) Q) :=
  ⟨fun p => hQ.refl _, fun h1 h2 => hQ.trans h1 h2⟩
/-- On the forest of a builder. -/
def OnChain (Q : Forest T → Forest T → Prop) (p q : Chain I T) : Prop := Q p.forest q.forest
theorem OnChain.ord (hQ : PreOrd Q) : PreOrd (OnChain (I := I) Q) :=
  ⟨fun p => hQ.refl _, fun h1 h2 => hQ.trans h1 h2⟩

theorem createRoot_kept (k : Kept cap Q) (d : T) : Keeps Q (Own.createRoot ty cap d) :=
  Keeps.bind k.ord (k.root d) fun _ => Keeps.pure k.ord _

theorem createInsert_kept (k : Kept cap Q) (d : T) (dest : OwnInsertAs I) : Keeps Q (Own.createInsert ty cap d dest) :=
  Keeps.bind k.ord (k.momo d _) fun _ => Keeps.pure k.ord _

theorem addChild_kept (k : Kept cap Q) (d : T) : Keeps (OnNest Q) (Nest.addChild ty cap d) := by
  have hO := OnNest.ord (I := I) k.ord
  unfold Nest.addChild
  refine Keeps.bind hO (Keeps.zoom (createRoot_kept k d) fun _ _ h => h) fun id => ?_
  refine Keeps.bind hO ?_ fun _ => fun b => hO.refl b
  have key : ∀ dest, Keeps (OnNest Q)
      (do let r ← Nest.onForest (Own.insert ty id dest); Treena.Nest.expectOk r Treena.Nest.addMsg : M (Nest I T) Unit) := by
    intro dest
    refine Keeps.bind hO (Keeps.zoom (k.insert (ty.unwrap id) (dest.unwrap ty)) fun _ _ h => h) fun r => ?_
    unfold Treena.Nest.expectOk
    split
    · exact Keeps.pure hO _
    · exact Keeps.panic hO _
  intro b
  unfold Nest.place
  cases b.current with
  | none => exact key _ b
  | some c => exact key _ b

theorem createTree_kept (k : Kept cap Q) (d : T) {f : M (Nest I T) Unit} (hf : Keeps (OnNest Q) f) :
    Keeps (OnNest Q) (Nest.createTree ty cap d f) := by
  have hO := OnNest.ord (I := I) k.ord
  unfold Nest.createTree
  refine Keeps.bind hO (addChild_kept k d) fun _ => ?_
  refine Keeps.bind hO (Keeps.read hO _) fun n => ?_
  refine Keeps.bind hO (fun b => k.ord.refl b.forest) fun _ => ?_
  refine Keeps.bind hO (Keeps.read hO _) fun o => ?_
  refine Keeps.bind hO (fun b => k.ord.refl b.forest) fun _ => ?_
  refine Keeps.bind hO hf fun _ => ?_
  exact Keeps.bind hO (fun b => k.ord.refl b.forest) fun _ => fun b => k.ord.refl b.forest

mutual
theorem nestExec_kept (k : Kept cap Q) : ∀ c : NestCall T, Keeps (OnNest Q) (Nest.exec ty cap c)
  | .addChild d => by unfold Nest.exec; exact addChild_kept k d
  | .createTree d cs => by unfold Nest.exec; exact createTree_kept k d (nestExecL_kept k cs)
  | .boom => by unfold Nest.exec; exact Keeps.panic (OnNest.ord k.ord) _
theorem nestExecL_kept (k : Kept cap Q) : ∀ cs : List (NestCall T), Keeps (OnNest Q) (Nest.execL ty cap cs)
  | [] => by unfold Nest.execL; exact Keeps.pure (OnNest.ord k.ord) _
  | c :: cs => by
    unfold Nest.execL
    exact Keeps.bind (OnNest.ord k.ord) (nestExec_kept k c) fun _ => nestExecL_kept k cs
end

theorem nestBuild_kept (k : Kept cap Q) (d : T) (cs : List (NestCall T)) : Keeps Q (Own.nestBuild ty cap d cs) := by
  intro f
  have h1 := createRoot_kept (ty := ty) k d f
  unfold Own.nestBuild Nest.new
  cases h : Own.createRoot ty cap d f with
  | fail e f' => rw [h] at h1; exact h1
  | ok r f' =>
    rw [h] at h1
    simp only []
    have h2 := nestExecL_kept (ty := ty) k cs { forest := f', root := r, current := none }
    cases h3 : Nest.execL ty cap cs { forest := f', root := r, current := none } <;> rw [h3] at h2 <;>
      exact k.ord.trans h1 h2

theorem chainExec_kept (k : Kept cap Q) (c : ChainCall T) : Keeps (OnChain Q) (Chain.exec ty cap c) := by
  have hO := OnChain.ord (I := I) k.ord
  have key : ∀ d dest, Keeps (OnChain Q) (do
      let new ← Chain.onForest (Own.createInsert ty cap d dest)
      M.modify fun b => { b with current := new } : M (Chain I T) Unit) := by
    intro d dest
    exact Keeps.bind hO (Keeps.zoom (createInsert_kept k d dest) fun _ _ h => h)
      fun _ => fun b => k.ord.refl b.forest
  cases c with
  | child d => exact fun b => key d _ b
  | sibling d => exact fun b => key d _ b
  | parent =>
    unfold Chain.exec Chain.parent
    refine Keeps.bind hO (Keeps.read hO _) fun p => Keeps.bind hO (Keeps.read hO _) fun _ => ?_
    exact fun b => k.ord.refl b.forest
  | tryParent =>
    unfold Chain.exec Chain.tryParent
    refine Keeps.bind hO ?_ fun _ => Keeps.pure hO _
    refine Keeps.bind hO (Keeps.read hO _) fun p => ?_
    split
    · exact Keeps.pure hO _
    · exact Keeps.bind hO (fun b => k.ord.refl b.forest) fun _ => Keeps.pure hO _

theorem chainExecL_kept (k : Kept cap Q) : ∀ cs : List (ChainCall T), Keeps (OnChain Q) (Chain.execL ty cap cs)
  | [] => by unfold Chain.execL; exact Keeps.pure (OnChain.ord k.ord) _
  | c :: cs => by
    unfold Chain.execL
    exact Keeps.bind (OnChain.ord k.ord) (chainExec_kept k c) fun _ => chainExecL_kept k cs

theorem chainBuild_kept (k : Kept cap Q) (d : T) (cs : List (ChainCall T)) : Keeps Q (Own.chainBuild ty cap d cs) := by
  intro f
  have h1 := createRoot_kept (ty := ty) k d f
  unfold Own.chainBuild Chain.new
  cases h : Own.createRoot ty cap d f with
  | fail e f' => rw [h] at h1; exact h1
  | ok r f' =>
    rw [h] at h1
    simp only []
    have h2 := chainExecL_kept (ty := ty) k cs { forest := f', root := r, current := r }
    cases h3 : Chain.execL ty cap cs { forest := f', root := r, current := r } <;> rw [h3] at h2 <;>
      exact k.ord.trans h1 h2

theorem adopt_kept (k : Kept cap Q) (self x : I) (d : AdoptAs) : Keeps Q (Own.adopt ty self x d : M (Forest T) Unit) := by
  unfold Own.adopt
  refine Keeps.bind k.ord (k.insert (ty.unwrap x) _) fun r => ?_
  split
  · exact Keeps.panic k.ord _
  · exact Keeps.pure k.ord _

end Own

end Treena

namespace Treena
variable {I T : Type} {ty : IdImpl I} {cap : Nat}

namespace Own

theorem callMap_keeps {S : Type} {Q : Forest T → Forest T → Prop} (hQ : PreOrd Q)
    (hook : Own.MapHook S I) (a b : I) : Keeps (On1 (T := T) Q) (Own.callMap hook a b) := by
  rintro ⟨f, s⟩
  unfold Own.callMap
  simp only []
  cases hook s a b <;> exact hQ.refl f

theorem cloneLocal_kept [DecidableEq I] {S : Type} {Q : Forest T → Forest T → Prop} (k : Kept cap Q) (cl : T → Option T)
    (hook : Own.MapHook S I) (x : I) : Keeps (On1 Q) (Own.cloneLocalTreeWithIdMapping ty cap cl hook x) := by
  have hO := On1.ord (S := S) k.ord
  unfold Own.cloneLocalTreeWithIdMapping
  refine Keeps.bind hO (Keeps.read hO _) fun d => ?_
  refine Keeps.bind hO (Keeps.read hO _) fun d => ?_
  refine Keeps.bind hO (onForest_keeps (createRoot_kept k d)) fun r => ?_
  refine Keeps.bind hO (callMap_keeps k.ord hook _ _) fun _ => ?_
  refine Keeps.bind hO (Keeps.read hO _) fun tr => ?_
  refine Keeps.bind hO (Keeps.read hO _) fun p => ?_
  obtain ⟨_, tr⟩ := p
  simp only []
  refine Keeps.bind hO (cloneLoop_keeps k.ord k.momo cl _ _ _ _ _ _) fun q => ?_
  obtain ⟨cur, _⟩ := q
  simp only []
  split
  · exact Keeps.panic hO _
  · exact Keeps.pure hO _

theorem cloneForeign_kept [DecidableEq I] {S : Type} {Q : Forest T → Forest T → Prop} (k : Kept cap Q) (cl : T → Option T)
    (hook : Own.MapHook S I) (fsrc : Forest T) (x : I) :
    Keeps (On1 Q) (Own.cloneForeignTreeWithIdMapping ty cap cl hook fsrc x) := by
  have hO := On1.ord (S := S) k.ord
  unfold Own.cloneForeignTreeWithIdMapping
  refine Keeps.bind hO (Keeps.read hO _) fun d => ?_
  refine Keeps.bind hO (Keeps.read hO _) fun d => ?_
  refine Keeps.bind hO (onForest_keeps (createRoot_kept k d)) fun r => ?_
  refine Keeps.bind hO (callMap_keeps k.ord hook _ _) fun _ => ?_
  refine Keeps.bind hO (Keeps.read hO _) fun tr => ?_
  refine Keeps.bind hO (Keeps.read hO _) fun p => ?_
  obtain ⟨_, tr⟩ := p
  simp only []
  refine Keeps.bind hO (cloneLoop_keeps k.ord k.momo cl _ _ _ _ _ _) fun q => ?_
  obtain ⟨cur, tr⟩ := q
  simp only []
  split
  · exact Keeps.panic hO _
  · refine Keeps.bind hO (Keeps.read hO _) fun l => ?_
    obtain ⟨last, _⟩ := l
    simp only []
    split
    · exact Keeps.panic hO _
    · exact Keeps.pure hO _

end Own

theorem ofRes_state {α : Type} (k : α → OwnAns I T) (r : Res (Forest T) α) : (OwnAns.ofRes k r).1 = r.state := by
  cases r <;> rfl
theorem ofResS_state {α S : Type} (k : α → S → OwnAns I T) (r : Res (Forest T × S) α) :
    (OwnAns.ofResS k r).1 = r.state.1 := by
  rcases r with ⟨a, f, s⟩ | ⟨e, f, s⟩ <;> rfl

theorem own_evolves [DecidableEq I] (cap um : Nat) (f : Forest T) (q : OwnReq I T) : Evolves f (q.exec ty cap um f).1 := by
  have r := evolves_ord.refl f
  have kb := both_kept (T := T) (cap := cap)
  cases q with
  | createRoot d => rw [OwnReq.exec, ofRes_state]; exact (Own.createRoot_kept kb d f).1
  | createInsert d dest => rw [OwnReq.exec, ofRes_state]; exact (Own.createInsert_kept kb d dest f).1
  | setData x v => rw [OwnReq.exec, ofRes_state]; exact setData_evolves (ty.unwrap x) v f
  | insert x dest => rw [OwnReq.exec, ofRes_state]; exact (kb.insert (ty.unwrap x) (dest.unwrap ty) f).1
  | detach x => rw [OwnReq.exec, ofRes_state]; exact (kb.detach (ty.unwrap x) f).1
  | detachSingle x => rw [OwnReq.exec, ofRes_state]; exact (kb.detachSingle (ty.unwrap x) f).1
  | drop x => rw [OwnReq.exec, ofRes_state]; exact remove_evolves (ty.unwrap x) f
  | dup x cl =>
    rw [OwnReq.exec, ofRes_state]
    have := (Own.cloneLocal_kept (ty := ty) kb cl (fun s _ _ => .ok s) x (f, ())).1
    unfold Own.cloneLocalTree Forest.noHook
    generalize Own.cloneLocalTreeWithIdMapping ty cap cl (fun s _ _ => .ok s) x (f, ()) = w at this ⊢
    cases w <;> exact this
  | remove x limit => rw [OwnReq.exec, ofResS_state]; exact removeHooked_evolves _ (ty.unwrap x) (f, [])
  | removeSafe x limit => rw [OwnReq.exec, ofResS_state]; exact removeHookedPanicSafe_evolves _ (ty.unwrap x) (f, [])
  | copy x cl limit => rw [OwnReq.exec, ofResS_state]; exact (Own.cloneLocal_kept kb cl _ x (f, [])).1
  | nodeCreate self d dest =>
    simp only [OwnReq.exec, own_node]
    cases f.isAlive (ty.unwrap self) with
    | false => exact r
    | true => simp only [if_true, ofRes_state]; exact (Own.createInsert_kept kb d _ f).1
  | tryAdopt self x dest =>
    simp only [OwnReq.exec, own_node]
    cases f.isAlive (ty.unwrap self) with
    | false => exact r
    | true => simp only [if_true, ofRes_state]; exact (kb.insert (ty.unwrap x) _ f).1
  | adopt self x dest =>
    simp only [OwnReq.exec, own_node]
    cases f.isAlive (ty.unwrap self) with
    | false => exact r
    | true => simp only [if_true, ofRes_state]; exact (Own.adopt_kept kb self x dest f).1
  | nest d calls => rw [OwnReq.exec, ofRes_state]; exact (Own.nestBuild_kept kb d calls f).1
  | chain d calls => rw [OwnReq.exec, ofRes_state]; exact (Own.chainBuild_kept kb d calls f).1
  | _ => exact r

end Treena
