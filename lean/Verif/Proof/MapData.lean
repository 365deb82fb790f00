import Verif.Spec.MapData
import Verif.Spec.Careful
import Verif.Spec.WellUsed
/-! Computations commute with replacing data. -/
set_option autoImplicit false

namespace Treena

/-- Change value and state of a result. -/
def Res.map2 {σ τ α β : Type} (G : α → β) (F : σ → τ) : Res σ α → Res τ β
  | .ok a s => .ok (G a) (F s)
  | .fail e s => .fail e (F s)

/-- `m'` does after `F` what `m` does before. -/
def Comm {σ τ α β : Type} (F : σ → τ) (G : α → β) (m : M σ α) (m' : M τ β) : Prop :=
  ∀ s, m' (F s) = (m s).map2 G F

namespace Comm
variable {σ τ α β γ δ : Type} {F : σ → τ} {G : α → β} {H : γ → δ}

theorem pure (a : α) : Comm F G (Pure.pure a) (Pure.pure (G a)) := fun _ => rfl

theorem bind {m : M σ α} {m' : M τ β} {k : α → M σ γ} {k' : β → M τ δ} (h : Comm F G m m')
    (hk : ∀ a, Comm F H (k a) (k' (G a))) : Comm F H (m >>= k) (m' >>= k') := by
  intro s
  simp only [M.run_bind, h s]
  cases m s with
  | ok a s' => exact hk a s'
  | fail e s' => rfl

theorem read {r : σ → R α} {r' : τ → R β} (h : ∀ s, r' (F s) = (r s).map G) : Comm F G (M.read r) (M.read r') := by
  intro s
  simp only [M.read, h s]
  cases r s <;> rfl

theorem throw (e : Fail) : Comm F G (M.throw e) (M.throw e) := fun _ => rfl
theorem panic (msg : String) : Comm F G (M.panic msg) (M.panic msg) := fun _ => rfl

theorem modify {u : σ → σ} {u' : τ → τ} (h : ∀ s, u' (F s) = F (u s)) :
    Comm F (fun x : Unit => x) (M.modify u) (M.modify u') := fun s => by simp [Res.map2, h]

theorem zoom {σ' τ' : Type} {F' : σ' → τ'} {get : σ' → σ} {set : σ → σ' → σ'} {get' : τ' → τ} {set' : τ → τ' → τ'}
    {m : M σ α} {m' : M τ β} (h : Comm F G m m') (hg : ∀ s, get' (F' s) = F (get s))
    (hs : ∀ a s, set' (F a) (F' s) = F' (set a s)) : Comm F' G (M.zoom get set m) (M.zoom get' set' m') := by
  intro s
  simp only [M.zoom, hg, h (get s)]
  cases m (get s) <;> simp [Res.map2, hs]

theorem ite {c c' : Prop} [Decidable c] [Decidable c'] (hc : c ↔ c') {a b : M σ α} {a' b' : M τ β} (ha : Comm F G a a')
    (hb : Comm F G b b') : Comm F G (if c then a else b) (if c' then a' else b') := by
  by_cases h : c
  · rw [if_pos h, if_pos (hc.1 h)]; exact ha
  · rw [if_neg h, if_neg (fun h' => h (hc.2 h'))]; exact hb

end Comm

section
variable {T U : Type} (g : T → U)

@[simp] theorem mapData_hier (f : Forest T) : (f.mapData g).hier = f.hier := rfl
@[simp] theorem mapData_length (f : Forest T) : (f.mapData g).data.length = f.data.length := by
  simp [Forest.mapData]
@[simp] theorem mapData_getData (f : Forest T) (x : Nat) : (f.mapData g).getData x = (f.getData x).map g := by
  simp only [Forest.mapData, Forest.getData, List.getElem?_map]
  cases f.data[x]? <;> rfl
@[simp] theorem mapData_isAlive (f : Forest T) (x : Nat) : (f.mapData g).isAlive x = f.isAlive x := by
  simp only [Forest.mapData, Forest.isAlive, List.getElem?_map]
  cases f.data[x]? <;> simp

abbrev idf {α : Type} : α → α := fun a => a

theorem except_map_id {ε α : Type} (r : Except ε α) : r.map idf = r := by cases r <;> rfl

theorem res_map2_id {σ τ α : Type} (F : σ → τ) (r : Res σ α) : r.map2 idf F = match r with
    | .ok a s => .ok a (F s)
    | .fail e s => .fail e (F s) := by cases r <;> rfl

theorem onHier_comm {α : Type} (m : M Hier α) :
    Comm (Forest.mapData g) idf (Forest.onHier m) (Forest.onHier m) := by
  intro f
  unfold Forest.onHier M.zoom
  simp only [mapData_hier]
  cases m f.hier <;> rfl

theorem readHier_comm {α : Type} (r : Hier → R α) :
    Comm (Forest.mapData g) idf (M.read fun f : Forest T => r f.hier) (M.read fun f => r f.hier) :=
  Comm.read fun f => by simp only [mapData_hier]; rw [except_map_id]

theorem pushData_comm (d : T) : Comm (Forest.mapData g) idf (Forest.pushData d) (Forest.pushData (g d)) :=
  Comm.modify fun f => by simp [Forest.mapData]

theorem createRoot_comm (cap : Nat) (d : T) :
    Comm (Forest.mapData g) idf (Forest.createRoot cap d) (Forest.createRoot cap (g d)) := by
  unfold Forest.createRoot
  refine Comm.bind (onHier_comm g _) fun a => ?_
  refine Comm.bind (G := idf) (Comm.read fun f => by simp; rfl) fun n => ?_
  refine Comm.ite Iff.rfl (Comm.panic _) ?_
  exact Comm.bind (pushData_comm g d) fun _ => Comm.pure _

theorem createInsert_comm (cap : Nat) (d : T) (dest : InsertAs) :
    Comm (Forest.mapData g) idf (Forest.createInsert cap d dest) (Forest.createInsert cap (g d) dest) := by
  unfold Forest.createInsert Forest.createInsertMomo
  refine Comm.bind (readHier_comm g fun h => .ok (h.isValid _)) fun v => ?_
  refine Comm.ite Iff.rfl (Comm.panic _) ?_
  refine Comm.bind (onHier_comm g _) fun a => ?_
  refine Comm.bind (pushData_comm g d) fun _ => ?_
  refine Comm.bind (onHier_comm g _) fun r => ?_
  cases r with
  | error e => exact Comm.panic _
  | ok u => exact Comm.pure _

theorem setData_comm (x : Nat) (v : T) :
    Comm (Forest.mapData g) idf (Forest.setData x v) (Forest.setData x (g v)) := by
  intro f
  unfold Forest.setData
  rw [mapData_getData]
  cases f.getData x with
  | none => rfl
  | some d => simp [Res.map2, Forest.mapData, List.map_set]

theorem takeData_comm (x : Nat) : Comm (Forest.mapData g) g (Forest.takeData x) (Forest.takeData x) := by
  intro f
  unfold Forest.takeData
  simp only [Forest.mapData, List.getElem?_map]
  rcases f.data[x]? with _ | _ | d
  · rfl
  · rfl
  · simp [Res.map2, List.map_set, Forest.mapData]

variable {S : Type}

/-- on pairs of forest and captured state -/
def mapFst : Forest T × S → Forest U × S := fun p => (p.1.mapData g, p.2)

@[simp] theorem mapFst_fst (p : Forest T × S) : (mapFst g p).1 = p.1.mapData g := rfl
@[simp] theorem mapFst_snd (p : Forest T × S) : (mapFst g p).2 = p.2 := rfl

theorem onForest_comm {α β : Type} {G : α → β} {m : M (Forest T) α} {m' : M (Forest U) β}
    (h : Comm (Forest.mapData g) G m m') : Comm (mapFst (S := S) g) G (Forest.onForest m) (Forest.onForest m') :=
  Comm.zoom h (fun _ => rfl) fun _ _ => rfl

theorem readPair_comm {α : Type} (r : Hier → R α) :
    Comm (mapFst (S := S) g) idf (M.read fun p : Forest T × S => r p.1.hier) (M.read fun p => r p.1.hier) :=
  Comm.read fun f => by simp only [mapFst_fst, mapData_hier]; rw [except_map_id]

theorem callHook_comm {hook : Forest.Hook S T} {hook' : Forest.Hook S U} (h : ∀ s d, hook' s (g d) = hook s d) (d : T) :
    Comm (mapFst g) idf (Forest.callHook hook d) (Forest.callHook hook' (g d)) := by
  rintro ⟨f, s⟩
  simp only [Forest.callHook, mapFst, h]
  cases hook s d <;> rfl

theorem closePanicSafe_comm {hook : Forest.Hook S T} {hook' : Forest.Hook S U} (h : ∀ s d, hook' s (g d) = hook s d)
    (x : Nat) : Comm (mapFst g) idf (Forest.closePanicSafe hook x) (Forest.closePanicSafe hook' x) := by
  unfold Forest.closePanicSafe
  refine Comm.bind (G := g) (onForest_comm g ?_) fun d => callHook_comm g h d
  refine Comm.bind (onHier_comm g _) fun nb => ?_
  refine Comm.bind (G := idf) (Comm.read fun f => (except_map_id _).symm) fun fc => ?_
  refine Comm.ite Iff.rfl (Comm.panic _) ?_
  refine Comm.bind (onHier_comm g _) fun _ => ?_
  refine Comm.bind (onHier_comm g _) fun nb => ?_
  refine Comm.bind (G := idf) (Comm.read fun f => (except_map_id _).symm) fun fc => ?_
  refine Comm.ite Iff.rfl (Comm.panic _) ?_
  exact Comm.bind (onHier_comm g _) fun _ => takeData_comm g x

theorem closeForce_comm {hook : Forest.Hook S T} {hook' : Forest.Hook S U} (h : ∀ s d, hook' s (g d) = hook s d)
    (x : Nat) : Comm (mapFst g) idf (Forest.closeForce hook x) (Forest.closeForce hook' x) := by
  unfold Forest.closeForce
  refine Comm.bind (G := g) (onForest_comm g ?_) fun d => callHook_comm g h d
  exact Comm.bind (onHier_comm g _) fun _ => takeData_comm g x

theorem removeLoop_comm {close : Nat → M (Forest T × S) Unit} {close' : Nat → M (Forest U × S) Unit}
    (h : ∀ x, Comm (mapFst g) idf (close x) (close' x)) (fuel : Nat) (tr : Safe.St) :
    Comm (mapFst g) idf (Forest.removeLoop close fuel tr) (Forest.removeLoop close' fuel tr) := by
  induction fuel generalizing tr with
  | zero => exact Comm.throw _
  | succ fuel ih =>
    unfold Forest.removeLoop
    refine Comm.bind (readPair_comm g fun h => Safe.next h tr) fun r => ?_
    obtain ⟨ev, tr'⟩ := r
    rcases ev with _ | _ | x
    · exact Comm.pure _
    · exact ih _
    · exact Comm.bind (h x) fun _ => ih _

theorem removeWith_comm {close : Nat → M (Forest T × S) Unit} {close' : Nat → M (Forest U × S) Unit}
    (h : ∀ x, Comm (mapFst g) idf (close x) (close' x)) (x : Nat) :
    Comm (mapFst g) idf (Forest.removeWith close x) (Forest.removeWith close' x) := by
  unfold Forest.removeWith
  refine Comm.bind (readPair_comm g fun h => .ok (h.isAlive x)) fun a => ?_
  refine Comm.ite Iff.rfl (Comm.pure _) ?_
  refine Comm.bind (onForest_comm g (onHier_comm g _)) fun _ => ?_
  refine Comm.bind (readPair_comm g fun h => Safe.new x h) fun tr => ?_
  exact Comm.bind (G := idf) (Comm.read fun f => rfl) fun fuel => removeLoop_comm g h fuel tr

theorem remove_comm (x : Nat) : Comm (Forest.mapData g) idf (Forest.remove x) (Forest.remove x) := by
  intro f
  have h := removeWith_comm g (fun y => closeForce_comm g (S := Unit) (hook := fun s _ => .ok s)
    (hook' := fun s _ => .ok s) (fun _ _ => rfl) y) x (f, ())
  unfold Forest.remove Forest.removeHooked
  have e : mapFst g (f, ()) = (f.mapData g, ()) := rfl
  rw [← e, h]
  cases Forest.removeWith (Forest.closeForce fun (s : Unit) (_ : T) => .ok s) x (f, ()) <;> rfl

/-! ### Cloning -/

theorem callMap_comm (hook : Forest.MapHook S) (a b : Nat) :
    Comm (mapFst (T := T) g) idf (Forest.callMap hook a b) (Forest.callMap hook a b) := by
  rintro ⟨f, s⟩
  simp only [Forest.callMap, mapFst]
  cases hook s a b <;> rfl

theorem clonedData_map {cl : T → Option T} {cl' : U → Option U} (h : ∀ d, cl' (g d) = (cl d).map g) (l : List (Option T)) (x : Nat) :
    Forest.clonedData cl' (l.map (Option.map g)) x = (Forest.clonedData cl l x).map g := by
  unfold Forest.clonedData
  simp only [List.getElem?_map]
  rcases l[x]? with _ | _ | d
  · rfl
  · rfl
  · simp only [Option.map_some, expect_some, h]
    cases cl d <;> rfl

/-- Two sources that are the same up to data. -/
structure SrcComm {τ : Type} (src : Forest.CloneSrc T τ) (src' : Forest.CloneSrc U τ) : Prop where
  next : ∀ f tr, src'.next (f.mapData g) tr = src.next f tr
  data : ∀ f, src'.data (f.mapData g) = (src.data f).map (Option.map g)

theorem cloneNextNode_comm {τ : Type} (cap : Nat) {cl : T → Option T} {cl' : U → Option U} (h : ∀ d, cl' (g d) = (cl d).map g)
    {src : Forest.CloneSrc T τ} {src' : Forest.CloneSrc U τ} (hs : SrcComm g src src') (fuel cur : Nat) (tr : τ) :
    Comm (Forest.mapData g) idf (Forest.cloneNextNode cap cl src fuel cur tr)
      (Forest.cloneNextNode cap cl' src' fuel cur tr) := by
  induction fuel generalizing cur tr with
  | zero => exact Comm.throw _
  | succ fuel ih =>
    unfold Forest.cloneNextNode
    refine Comm.bind (G := idf) (Comm.read fun f => by rw [hs.next, except_map_id]) fun r => ?_
    obtain ⟨ev, tr'⟩ := r
    rcases ev with _ | x | x
    · exact Comm.panic _
    · refine Comm.bind (G := g) (Comm.read fun f => by rw [hs.data, clonedData_map g h]) fun d => ?_
      exact Comm.bind (createInsert_comm g cap d _) fun c => Comm.pure _
    · refine Comm.bind (onHier_comm g _) fun nb => ?_
      refine Comm.bind (G := idf) (Comm.read fun f => (except_map_id _).symm) fun p => ?_
      cases p with
      | none => exact Comm.pure _
      | some id => exact ih _ _

theorem cloneLoop_comm {τ : Type} (cap : Nat) {cl : T → Option T} {cl' : U → Option U} (h : ∀ d, cl' (g d) = (cl d).map g)
    {src : Forest.CloneSrc T τ} {src' : Forest.CloneSrc U τ} (hs : SrcComm g src src') (hook : Forest.MapHook S)
    (inner fuel cur : Nat) (tr : τ) :
    Comm (mapFst g) idf (Forest.cloneLoop cap cl src hook inner fuel cur tr)
      (Forest.cloneLoop cap cl' src' hook inner fuel cur tr) := by
  induction fuel generalizing cur tr with
  | zero => exact Comm.throw _
  | succ fuel ih =>
    unfold Forest.cloneLoop
    refine Comm.bind (onForest_comm g (cloneNextNode_comm g cap h hs _ _ _)) fun r => ?_
    obtain ⟨o, cur', tr'⟩ := r
    cases o with
    | none => exact Comm.pure _
    | some x => exact Comm.bind (callMap_comm g _ _ _) fun _ => ih _ _

theorem localSrc_comm : SrcComm g (Forest.localSrc : Forest.CloneSrc T _) Forest.localSrc :=
  ⟨fun _ _ => rfl, fun _ => rfl⟩

theorem foreignSrc_comm (fsrc : Forest T) : SrcComm g (Forest.foreignSrc fsrc) (Forest.foreignSrc (fsrc.mapData g)) :=
  ⟨fun _ _ => rfl, fun _ => rfl⟩

theorem expect_map {α β : Type} (G : α → β) (o : Option α) (msg : String) :
    expect (o.map G) msg = (expect o msg).map G := by cases o <;> rfl

theorem cloneLocal_comm (cap : Nat) {cl : T → Option T} {cl' : U → Option U} (h : ∀ d, cl' (g d) = (cl d).map g)
    (hook : Forest.MapHook S) (x : Nat) :
    Comm (mapFst g) idf (Forest.cloneLocalTreeWithIdMapping cap cl hook x)
      (Forest.cloneLocalTreeWithIdMapping cap cl' hook x) := by
  unfold Forest.cloneLocalTreeWithIdMapping
  refine Comm.bind (G := g) (Comm.read fun f => by rw [mapFst_fst, mapData_getData, expect_map]) fun d => ?_
  refine Comm.bind (G := g) (Comm.read fun f => by rw [h, expect_map]) fun d' => ?_
  refine Comm.bind (onForest_comm g (createRoot_comm g cap _)) fun r => ?_
  refine Comm.bind (callMap_comm g _ _ _) fun _ => ?_
  refine Comm.bind (readPair_comm g fun h => Safe.new x h) fun tr => ?_
  refine Comm.bind (readPair_comm g fun h => Safe.next h tr) fun r' => ?_
  refine Comm.bind (cloneLoop_comm g cap h (localSrc_comm g) hook _ _ _ _) fun r'' => ?_
  exact Comm.ite Iff.rfl (Comm.panic _) (Comm.pure _)

theorem cloneForeign_comm (cap : Nat) {cl : T → Option T} {cl' : U → Option U} (h : ∀ d, cl' (g d) = (cl d).map g)
    (hook : Forest.MapHook S) (fsrc : Forest T) (x : Nat) :
    Comm (mapFst g) idf (Forest.cloneForeignTreeWithIdMapping cap cl hook fsrc x)
      (Forest.cloneForeignTreeWithIdMapping cap cl' hook (fsrc.mapData g) x) := by
  unfold Forest.cloneForeignTreeWithIdMapping
  refine Comm.bind (G := g) (Comm.read fun f => by rw [mapData_getData, expect_map]) fun d => ?_
  refine Comm.bind (G := g) (Comm.read fun f => by rw [h, expect_map]) fun d' => ?_
  refine Comm.bind (onForest_comm g (createRoot_comm g cap _)) fun r => ?_
  refine Comm.bind (callMap_comm g _ _ _) fun _ => ?_
  refine Comm.bind (G := idf) (Comm.read fun f => (except_map_id _).symm) fun tr => ?_
  refine Comm.bind (G := idf) (Comm.read fun f => (except_map_id _).symm) fun r' => ?_
  refine Comm.bind (cloneLoop_comm g cap h (foreignSrc_comm g fsrc) hook _ _ _ _) fun r'' => ?_
  refine Comm.ite Iff.rfl (Comm.panic _) ?_
  refine Comm.bind (G := idf) (Comm.read fun f => (except_map_id _).symm) fun r3 => ?_
  exact Comm.ite Iff.rfl (Comm.panic _) (Comm.pure _)

/-! ### NodeMut and builders -/

theorem adopt_comm (self x : Nat) (dest : AdoptAs) :
    Comm (Forest.mapData g) idf (NodeMut.adopt self x dest) (NodeMut.adopt self x dest) := by
  unfold NodeMut.adopt
  refine Comm.bind (onHier_comm g _) fun r => ?_
  cases r with
  | error e => exact Comm.panic _
  | ok u => exact Comm.pure _

/-- on builders -/
def Nest.mapData (b : Nest T) : Nest U := ⟨b.forest.mapData g, b.root, b.current⟩
def Chain.mapData (b : Chain T) : Chain U := ⟨b.forest.mapData g, b.root, b.current⟩

theorem nest_onForest_comm {α β : Type} {G : α → β} {m : M (Forest T) α} {m' : M (Forest U) β}
    (h : Comm (Forest.mapData g) G m m') : Comm (Nest.mapData g) G (Nest.onForest m) (Nest.onForest m') :=
  Comm.zoom h (fun _ => rfl) fun _ _ => rfl

theorem chain_onForest_comm {α β : Type} {G : α → β} {m : M (Forest T) α} {m' : M (Forest U) β}
    (h : Comm (Forest.mapData g) G m m') : Comm (Chain.mapData g) G (Chain.onForest m) (Chain.onForest m') :=
  Comm.zoom h (fun _ => rfl) fun _ _ => rfl

theorem expectOk_comm {σ τ : Type} {F : σ → τ} (r : Except StructureError Unit) (msg : String) :
    Comm F idf (Nest.expectOk r msg) (Nest.expectOk r msg) := by
  cases r with
  | error e => exact Comm.panic _
  | ok u => exact Comm.pure _

theorem nest_place_comm (n : Nat) : Comm (Nest.mapData (T := T) g) idf (Nest.place n) (Nest.place n) := by
  rintro ⟨f, r, c⟩
  cases c with
  | none =>
    exact Comm.bind (nest_onForest_comm g (onHier_comm g _)) (fun r => expectOk_comm r _) ⟨f, r, none⟩
  | some p =>
    exact Comm.bind (nest_onForest_comm g (onHier_comm g _)) (fun r => expectOk_comm r _) ⟨f, r, some p⟩

theorem nest_addChild_comm (cap : Nat) (d : T) :
    Comm (Nest.mapData g) idf (Nest.addChild cap d) (Nest.addChild cap (g d)) := by
  unfold Nest.addChild
  refine Comm.bind (nest_onForest_comm g (createRoot_comm g cap d)) fun n => ?_
  refine Comm.bind (nest_place_comm g n) fun _ => ?_
  exact Comm.modify fun _ => rfl

theorem nest_createTree_comm (cap : Nat) (d : T) {m : M (Nest T) Unit} {m' : M (Nest U) Unit}
    (h : Comm (Nest.mapData g) idf m m') :
    Comm (Nest.mapData g) idf (Nest.createTree cap d m) (Nest.createTree cap (g d) m') := by
  unfold Nest.createTree
  refine Comm.bind (nest_addChild_comm g cap d) fun _ => ?_
  refine Comm.bind (G := idf) (Comm.read fun b => (except_map_id _).symm) fun n => ?_
  refine Comm.bind (Comm.modify fun _ => rfl) fun _ => ?_
  refine Comm.bind (G := idf) (Comm.read fun b => (except_map_id _).symm) fun o => ?_
  refine Comm.bind (Comm.modify fun _ => rfl) fun _ => ?_
  refine Comm.bind h fun _ => ?_
  refine Comm.bind (Comm.modify fun _ => rfl) fun _ => ?_
  exact Comm.modify fun _ => rfl

mutual
theorem nest_exec_comm (cap : Nat) : ∀ c : NestCall T,
    Comm (Nest.mapData g) idf (c.exec cap) ((c.mapData g).exec cap)
  | .addChild d => by
    simp only [NestCall.exec, NestCall.mapData]; exact nest_addChild_comm g cap d
  | .createTree d cs => by
    simp only [NestCall.exec, NestCall.mapData]; exact nest_createTree_comm g cap d (nest_execL_comm cap cs)
  | .boom => by simp only [NestCall.exec, NestCall.mapData]; exact Comm.panic _
theorem nest_execL_comm (cap : Nat) : ∀ cs : List (NestCall T),
    Comm (Nest.mapData g) idf (NestCall.execL cap cs) (NestCall.execL cap (NestCall.mapDataL g cs))
  | [] => by simp only [NestCall.execL, NestCall.mapDataL]; exact Comm.pure _
  | c :: cs => by
    simp only [NestCall.execL, NestCall.mapDataL]
    exact Comm.bind (nest_exec_comm cap c) fun _ => nest_execL_comm cap cs
end

theorem nestBuild_comm (cap : Nat) (d : T) (cs : List (NestCall T)) :
    Comm (Forest.mapData g) idf (nestBuild cap d cs) (nestBuild cap (g d) (NestCall.mapDataL g cs)) := by
  intro f
  unfold nestBuild Nest.new
  rw [createRoot_comm g cap d f]
  cases Forest.createRoot cap d f with
  | fail e f' => rfl
  | ok r f' =>
    have h := nest_execL_comm g cap cs ⟨f', r, none⟩
    have e : Nest.mapData g ⟨f', r, none⟩ = (⟨f'.mapData g, r, none⟩ : Nest U) := rfl
    rw [e] at h
    simp only [Res.map2]
    rw [h]
    cases NestCall.execL cap cs ⟨f', r, none⟩ <;> rfl

theorem chain_setCurrent_comm (n : Nat) :
    Comm (Chain.mapData g) idf (M.modify fun b : Chain T => { b with current := n })
      (M.modify fun b : Chain U => { b with current := n }) := Comm.modify fun _ => rfl

theorem chain_child_comm (cap : Nat) (d : T) :
    Comm (Chain.mapData g) idf (Chain.child cap d) (Chain.child cap (g d)) := by
  intro b
  exact Comm.bind (chain_onForest_comm g (createInsert_comm g cap d _)) (fun n => chain_setCurrent_comm g n) b

theorem chain_sibling_comm (cap : Nat) (d : T) :
    Comm (Chain.mapData g) idf (Chain.sibling cap d) (Chain.sibling cap (g d)) := by
  intro b
  exact Comm.bind (chain_onForest_comm g (createInsert_comm g cap d _)) (fun n => chain_setCurrent_comm g n) b

theorem mapData_node (f : Forest T) (x : Nat) : (f.mapData g).node x = f.node x := by
  simp [Forest.node]

theorem mapData_nbr (f : Forest T) (x : Nat) : (f.mapData g).nbr x = f.nbr x := rfl

theorem chain_parentOf (b : Chain T) : (b.mapData g).parentOfCurrent = b.parentOfCurrent := by
  simp only [Chain.parentOfCurrent, Chain.mapData, mapData_node]
  rfl

theorem chain_exec_comm (cap : Nat) (c : ChainCall T) :
    Comm (Chain.mapData g) idf (c.exec cap) ((c.mapData g).exec cap) := by
  cases c with
  | child d => exact chain_child_comm g cap d
  | sibling d => exact chain_sibling_comm g cap d
  | parent =>
    simp only [ChainCall.exec, ChainCall.mapData]
    unfold Chain.parent
    refine Comm.bind (G := idf) (Comm.read fun b => by rw [chain_parentOf, except_map_id]) fun p => ?_
    refine Comm.bind (G := idf) (Comm.read fun b => (except_map_id _).symm) fun o => ?_
    exact Comm.modify fun _ => rfl
  | tryParent =>
    simp only [ChainCall.exec, ChainCall.mapData]
    refine Comm.bind (G := idf) ?_ fun _ => Comm.pure _
    unfold Chain.tryParent
    refine Comm.bind (G := idf) (Comm.read fun b => by rw [chain_parentOf, except_map_id]) fun p => ?_
    cases p with
    | none => exact Comm.pure _
    | some q => exact Comm.bind (Comm.modify fun _ => rfl) fun _ => Comm.pure _

theorem chain_execL_comm (cap : Nat) (cs : List (ChainCall T)) :
    Comm (Chain.mapData g) idf (ChainCall.execL cap cs) (ChainCall.execL cap (cs.map (ChainCall.mapData g))) := by
  induction cs with
  | nil => exact Comm.pure _
  | cons c cs ih =>
    simp only [ChainCall.execL, List.map_cons]
    exact Comm.bind (chain_exec_comm g cap c) fun _ => ih

theorem chainBuild_comm (cap : Nat) (d : T) (cs : List (ChainCall T)) :
    Comm (Forest.mapData g) idf (chainBuild cap d cs) (chainBuild cap (g d) (cs.map (ChainCall.mapData g))) := by
  intro f
  unfold chainBuild Chain.new
  rw [createRoot_comm g cap d f]
  cases Forest.createRoot cap d f with
  | fail e f' => rfl
  | ok r f' =>
    have h := chain_execL_comm g cap cs ⟨f', r, r⟩
    have e : Chain.mapData g ⟨f', r, r⟩ = (⟨f'.mapData g, r, r⟩ : Chain U) := rfl
    rw [e] at h
    simp only [Res.map2]
    rw [h]
    cases ChainCall.execL cap cs ⟨f', r, r⟩ <;> rfl

end
end Treena
