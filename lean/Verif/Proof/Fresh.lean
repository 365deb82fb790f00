import Verif.Proof.History
/-! The IDs returned by creating calls, in every coherent state. -/
namespace Treena
variable {T : Type} {σ α β : Type}

/-- If the computation returns, it returns `r`. -/
def RetEq (r : α) (m : M σ α) : Prop := ∀ s a s', m s = .ok a s' → a = r

namespace RetEq
theorem pure (r : α) : RetEq r (Pure.pure r : M σ α) := fun s a s' h => by cases h; rfl
theorem panic (r : α) (e : String) : RetEq r (M.panic e : M σ α) := fun s a s' h => by cases h
theorem bind {r : β} {m : M σ α} {k : α → M σ β} (h : ∀ a, RetEq r (k a)) : RetEq r (m >>= k) := by
  intro s a s' hr
  rw [M.run_bind] at hr
  cases hm : m s with
  | ok b s1 => rw [hm] at hr; exact h b s1 a s' hr
  | fail e s1 => rw [hm] at hr; cases hr
end RetEq

/-- The returned ID is the next one, and it got a datum. -/
def NewId (f : Forest T) (id : Nat) (f' : Forest T) : Prop :=
  Coherent f → id = f.issued ∧ ∃ d l, f'.data = f.data ++ some d :: l

/-- If the computation returns an ID, it is new. -/
def Makes (m : M (Forest T) Nat) : Prop := ∀ f id f', m f = .ok id f' → NewId f id f'
def Makes1 {S : Type} (m : M (Forest T × S) Nat) : Prop := ∀ p id q, m p = .ok id q → NewId p.1 id q.1

theorem NewId.ext {f g g' : Forest T} {id : Nat} (h : NewId f id g) (hd : DataExt g g') : NewId f id g' := fun hc => by
  obtain ⟨h1, d, l, h2⟩ := h hc
  obtain ⟨l', h3⟩ := hd
  exact ⟨h1, d, l ++ l', by rw [h3, h2]; simp⟩

theorem Makes.then {m : M (Forest T) Nat} {k : Nat → M (Forest T) Nat} (h : Makes m)
    (h1 : ∀ r, RetEq r (k r)) (h2 : ∀ r, Keeps DataExt (k r)) : Makes (m >>= k) := by
  intro f id f' hr
  rw [M.run_bind] at hr
  cases hm : m f with
  | fail e s1 => rw [hm] at hr; cases hr
  | ok b s1 =>
    rw [hm] at hr
    simp only at hr
    have e := h1 b s1 id f' hr
    subst e
    have := h2 id s1
    rw [hr] at this
    exact (h f id s1 hm).ext this

theorem Makes1.then {S : Type} {m : M (Forest T × S) Nat} {k : Nat → M (Forest T × S) Nat} (h : Makes1 m)
    (h1 : ∀ r, RetEq r (k r)) (h2 : ∀ r, Keeps (On1 DataExt) (k r)) : Makes1 (m >>= k) := by
  intro f id f' hr
  rw [M.run_bind] at hr
  cases hm : m f with
  | fail e s1 => rw [hm] at hr; cases hr
  | ok b s1 =>
    rw [hm] at hr
    simp only at hr
    have e := h1 b s1 id f' hr
    subst e
    have := h2 id s1
    rw [hr] at this
    exact (h f id s1 hm).ext this

theorem Makes1.read {S α : Type} {g : Forest T × S → R α} {k : α → M (Forest T × S) Nat}
    (h : ∀ a, Makes1 (k a)) : Makes1 (M.read g >>= k) := by
  intro p id q hr
  rw [M.run_bind] at hr
  unfold M.read at hr
  cases hg : g p with
  | error e => rw [hg] at hr; cases hr
  | ok a => rw [hg] at hr; exact h a p id q hr

theorem Makes.read {α : Type} {g : Forest T → R α} {k : α → M (Forest T) Nat}
    (h : ∀ a, Makes (k a)) : Makes (M.read g >>= k) := by
  intro p id q hr
  rw [M.run_bind] at hr
  unfold M.read at hr
  cases hg : g p with
  | error e => rw [hg] at hr; cases hr
  | ok a => rw [hg] at hr; exact h a p id q hr

theorem Makes.on {S : Type} {m : M (Forest T) Nat} (h : Makes m) : Makes1 (Forest.onForest (S := S) m) := by
  intro p id q hr
  unfold Forest.onForest M.zoom at hr
  cases hm : m p.1 with
  | fail e s1 => rw [hm] at hr; cases hr
  | ok b s1 => rw [hm] at hr; cases hr; exact h _ _ _ hm

theorem pushRoot_makes (cap : Nat) (d : T) : Makes (pushRoot cap d) := by
  intro f id f' hr hc
  simp only [pushRoot, M.run_bind, Forest.onHier, M.zoom, Hier.createRoot, Hier.fromUsize, Forest.pushData] at hr
  by_cases hcap : f.hier.nbrs.length < cap
  · simp only [hcap, if_true] at hr
    cases hr
    exact ⟨hc.len.symm, d, [], rfl⟩
  · simp only [hcap, if_false] at hr
    cases hr

theorem createRoot_makes (cap : Nat) (d : T) : Makes (Forest.createRoot cap d) := by
  intro f id f' hr hc
  simp only [Forest.createRoot, M.run_bind, Forest.onHier, M.zoom, Hier.createRoot, Hier.fromUsize, M.read,
    Forest.pushData, hc.len] at hr
  by_cases hcap : f.hier.nbrs.length < cap
  · simp [hcap, hc.len] at hr
    obtain ⟨rfl, rfl⟩ := hr
    exact ⟨hc.len.symm, d, [], rfl⟩
  · simp only [hcap, if_false] at hr
    cases hr

theorem insert_ext (x : Nat) (dest : InsertAs) : Keeps DataExt (Forest.onHier (Hier.insert x dest) : M (Forest T) _) :=
  fun f => (insert_both x dest f).2

theorem createInsertMomo_makes (cap : Nat) (d : T) (dest : InsertAs) : Makes (Forest.createInsertMomo cap d dest) := by
  rw [createInsertMomo_eq]
  refine Makes.read fun v => ?_
  split
  · intro f id f' h; cases h
  · refine (pushRoot_makes cap d).then (fun r => RetEq.bind fun q => ?_) (fun r => Keeps.bind dataExt_ord
      (insert_ext r dest) fun q => ?_)
    · split
      · exact RetEq.panic _ _
      · exact RetEq.pure _
    · split
      · exact Keeps.panic dataExt_ord _
      · exact Keeps.pure dataExt_ord _

section
variable {cap : Nat}

theorem createRoot_ext (d : T) : Keeps DataExt (Forest.createRoot cap d) := fun f => (createRoot_both cap d f).2
theorem createInsertMomo_ext (d : T) (dest : InsertAs) : Keeps DataExt (Forest.createInsertMomo cap d dest) :=
  fun f => (createInsertMomo_both cap d dest f).2

theorem cloneLocal_makes {S : Type} (cl : T → Option T) (hook : Forest.MapHook S) (x : Nat) :
    Makes1 (Forest.cloneLocalTreeWithIdMapping cap cl hook x) := by
  have hO := On1.ord (S := S) (dataExt_ord (T := T))
  unfold Forest.cloneLocalTreeWithIdMapping
  refine Makes1.read fun d => Makes1.read fun d' => ?_
  refine (createRoot_makes cap _).on.then (fun r => ?_) (fun r => ?_)
  · refine RetEq.bind fun _ => RetEq.bind fun _ => RetEq.bind fun p => ?_
    obtain ⟨_, tr⟩ := p
    refine RetEq.bind fun q => ?_
    obtain ⟨cur, _⟩ := q
    simp only []
    split
    · exact RetEq.panic _ _
    · exact RetEq.pure _
  · refine Keeps.bind hO (callMap_keeps dataExt_ord hook _ _) fun _ => ?_
    refine Keeps.bind hO (Keeps.read hO _) fun tr => ?_
    refine Keeps.bind hO (Keeps.read hO _) fun p => ?_
    obtain ⟨_, tr⟩ := p
    simp only []
    refine Keeps.bind hO (cloneLoop_keeps dataExt_ord createInsertMomo_ext cl _ hook _ _ _ _) fun q => ?_
    obtain ⟨cur, _⟩ := q
    simp only []
    split
    · exact Keeps.panic hO _
    · exact Keeps.pure hO _

theorem cloneForeign_makes {S : Type} (cl : T → Option T) (hook : Forest.MapHook S) (fsrc : Forest T) (x : Nat) :
    Makes1 (Forest.cloneForeignTreeWithIdMapping cap cl hook fsrc x) := by
  have hO := On1.ord (S := S) (dataExt_ord (T := T))
  unfold Forest.cloneForeignTreeWithIdMapping
  refine Makes1.read fun d => Makes1.read fun d' => ?_
  refine (createRoot_makes cap _).on.then (fun r => ?_) (fun r => ?_)
  · refine RetEq.bind fun _ => RetEq.bind fun _ => RetEq.bind fun p => ?_
    obtain ⟨_, tr⟩ := p
    refine RetEq.bind fun q => ?_
    obtain ⟨cur, _⟩ := q
    simp only []
    split
    · exact RetEq.panic _ _
    · refine RetEq.bind fun q => ?_
      obtain ⟨_, _⟩ := q
      simp only []
      split
      · exact RetEq.panic _ _
      · exact RetEq.pure _
  · refine Keeps.bind hO (callMap_keeps dataExt_ord hook _ _) fun _ => ?_
    refine Keeps.bind hO (Keeps.read hO _) fun tr => ?_
    refine Keeps.bind hO (Keeps.read hO _) fun p => ?_
    obtain ⟨_, tr⟩ := p
    simp only []
    refine Keeps.bind hO (cloneLoop_keeps dataExt_ord createInsertMomo_ext cl _ hook _ _ _ _) fun q => ?_
    obtain ⟨cur, tr⟩ := q
    simp only []
    split
    · exact Keeps.panic hO _
    · refine Keeps.bind hO (Keeps.read hO _) fun q => ?_
      obtain ⟨last, _⟩ := q
      simp only []
      split
      · exact Keeps.panic hO _
      · exact Keeps.pure hO _

/-! ### Builders keep their root -/

/-- Nothing but the forest and the cursor changes. -/
def SameRoot (b b' : Nest T) : Prop := b'.root = b.root
theorem sameRoot_ord : PreOrd (SameRoot (T := T)) := ⟨fun _ => rfl, fun h1 h2 => h2.trans h1⟩

theorem nest_onForest_root {α : Type} (m : M (Forest T) α) : Keeps SameRoot (Nest.onForest m) :=
  fun b => by unfold Nest.onForest M.zoom; cases m b.forest <;> rfl

theorem nest_addChild_root (d : T) : Keeps SameRoot (Nest.addChild cap d) := by
  unfold Nest.addChild
  refine Keeps.bind sameRoot_ord (nest_onForest_root _) fun id => ?_
  refine Keeps.bind sameRoot_ord ?_ fun _ => fun b => rfl
  intro b
  unfold Nest.place
  have key : ∀ r : Except StructureError Unit, Keeps SameRoot (Nest.expectOk (σ := Nest T) r Nest.addMsg) := by
    intro r; unfold Nest.expectOk; split
    · exact Keeps.pure sameRoot_ord _
    · exact Keeps.panic sameRoot_ord _
  split <;> exact (Keeps.bind sameRoot_ord (nest_onForest_root _) fun r => key r) b

mutual
theorem nest_exec_root : ∀ (c : NestCall T) (b b' : Nest T), NestCall.exec cap c b = .ok () b' → b'.root = b.root
  | .addChild d, b, b', h => by
    have := nest_addChild_root (cap := cap) d b
    simp only [NestCall.exec] at h
    rw [h] at this; exact this
  | .createTree d cs, b, b', h => by
    simp only [NestCall.exec, Nest.createTree, M.run_bind] at h
    have h1 := nest_addChild_root (cap := cap) d b
    cases h2 : Nest.addChild cap d b with
    | fail e b1 => rw [h2] at h; cases h
    | ok u b1 =>
      rw [h2] at h h1
      simp only [M.read] at h
      cases h3 : expect b1.current "[consistency] `add_child` makes `current` `Some`" with
      | error e => rw [h3] at h; cases h
      | ok nr =>
        rw [h3] at h
        simp only [M.run_modify] at h
        cases h4 : NestCall.execL cap cs { b1 with current := none, root := nr } with
        | fail e b2 => rw [h4] at h; cases h
        | ok u b2 =>
          rw [h4] at h
          cases h
          exact h1
  | .boom, b, b', h => by cases h
theorem nest_execL_root : ∀ (cs : List (NestCall T)) (b b' : Nest T),
    NestCall.execL cap cs b = .ok () b' → b'.root = b.root
  | [], b, b', h => by cases h; rfl
  | c :: cs, b, b', h => by
    simp only [NestCall.execL, M.run_bind] at h
    cases h1 : NestCall.exec cap c b with
    | fail e b1 => rw [h1] at h; cases h
    | ok u b1 =>
      rw [h1] at h
      rw [nest_execL_root cs b1 b' h, nest_exec_root c b b1 h1]
end

theorem nestBuild_makes (d : T) (cs : List (NestCall T)) : Makes (nestBuild cap d cs) := by
  intro f id f' h
  unfold nestBuild Nest.new at h
  cases h1 : Forest.createRoot cap d f with
  | fail e f1 => rw [h1] at h; cases h
  | ok r f1 =>
    rw [h1] at h
    simp only at h
    have h2 := nest_execL_both (cap := cap) cs { forest := f1, root := r, current := none }
    cases h3 : NestCall.execL cap cs { forest := f1, root := r, current := none } with
    | fail e b => rw [h3] at h; cases h
    | ok u b =>
      rw [h3] at h h2
      simp only [Nest.getRoot, Res.ok.injEq] at h
      obtain ⟨rfl, rfl⟩ := h
      have := nest_execL_root cs _ _ h3
      simp only at this
      rw [this]
      exact (createRoot_makes cap d f r f1 h1).ext h2.2

/-- The root of a chain builder never changes. -/
def SameCRoot (b b' : Chain T) : Prop := b'.root = b.root
theorem sameCRoot_ord : PreOrd (SameCRoot (T := T)) := ⟨fun _ => rfl, fun h1 h2 => h2.trans h1⟩

theorem chain_onForest_root {α : Type} (m : M (Forest T) α) : Keeps SameCRoot (Chain.onForest m) :=
  fun b => by unfold Chain.onForest M.zoom; cases m b.forest <;> rfl

theorem chain_make_root (d : T) (dest : InsertAs) : Keeps SameCRoot (do
    let new ← Chain.onForest (Forest.createInsert cap d dest)
    M.modify fun b => { b with current := new } : M (Chain T) Unit) :=
  Keeps.bind sameCRoot_ord (chain_onForest_root _) fun _ _ => rfl

theorem chain_exec_root (c : ChainCall T) : Keeps SameCRoot (ChainCall.exec cap c) := by
  cases c with
  | child d =>
    intro b
    simp only [ChainCall.exec, Chain.child]
    exact chain_make_root d _ b
  | sibling d =>
    intro b
    simp only [ChainCall.exec, Chain.sibling]
    exact chain_make_root d _ b
  | parent =>
    simp only [ChainCall.exec, Chain.parent]
    refine Keeps.bind sameCRoot_ord (Keeps.read sameCRoot_ord _) fun _ => ?_
    exact Keeps.bind sameCRoot_ord (Keeps.read sameCRoot_ord _) fun _ => fun _ => rfl
  | tryParent =>
    simp only [ChainCall.exec, Chain.tryParent]
    refine Keeps.bind sameCRoot_ord (Keeps.bind sameCRoot_ord (Keeps.read sameCRoot_ord _) fun p => ?_) fun _ =>
      Keeps.pure sameCRoot_ord _
    split
    · exact Keeps.pure sameCRoot_ord _
    · exact Keeps.bind sameCRoot_ord (fun _ => rfl) fun _ => Keeps.pure sameCRoot_ord _

theorem chain_execL_root : ∀ cs : List (ChainCall T), Keeps SameCRoot (ChainCall.execL cap cs)
  | [] => Keeps.pure sameCRoot_ord _
  | c :: cs => Keeps.bind sameCRoot_ord (chain_exec_root c) fun _ => chain_execL_root cs

theorem chainBuild_makes (d : T) (cs : List (ChainCall T)) : Makes (chainBuild cap d cs) := by
  intro f id f' h
  unfold chainBuild Chain.new at h
  cases h1 : Forest.createRoot cap d f with
  | fail e f1 => rw [h1] at h; cases h
  | ok r f1 =>
    rw [h1] at h
    simp only at h
    have h2 := chain_execL_both (cap := cap) cs { forest := f1, root := r, current := r }
    have h4 := chain_execL_root (cap := cap) cs { forest := f1, root := r, current := r }
    cases h3 : ChainCall.execL cap cs { forest := f1, root := r, current := r } with
    | fail e b => rw [h3] at h; cases h
    | ok u b =>
      rw [h3] at h h2 h4
      simp only [Chain.rootId, Res.ok.injEq] at h
      obtain ⟨rfl, rfl⟩ := h
      have : b.root = r := h4
      rw [this]
      exact (createRoot_makes cap d f r f1 h1).ext h2.2

theorem makes_value {m : M (Forest T) Nat} (h : Makes m) {f : Forest T} {id : Nat}
    (hv : Op.valueOf (m f) = some id) : NewId f id (m f).state := by
  cases hm : m f with
  | fail e s1 => rw [hm] at hv; cases hv
  | ok a s1 => rw [hm] at hv; cases hv; exact h _ _ _ hm

theorem makes1_value {S : Type} {m : M (Forest T × S) Nat} (h : Makes1 m) {p : Forest T × S} {id : Nat}
    (hv : Op.valueOf (m p) = some id) : NewId p.1 id (m p).state.1 := by
  cases hm : m p with
  | fail e s1 => rw [hm] at hv; cases hv
  | ok a s1 => rw [hm] at hv; cases hv; exact h _ _ _ hm

theorem newId_new (f : Forest T) (op : Op T) {id : Nat} (h : Op.newId cap f op = some id) :
    NewId f id (Op.step cap f op) := by
  cases op with
  | createRoot d => exact makes_value (createRoot_makes cap d) h
  | createInsert d dest => exact makes_value (createInsertMomo_makes cap d dest) h
  | cloneLocal S cl hook c x => exact makes1_value (cloneLocal_makes cl hook x) h
  | cloneForeign S cl hook c fsrc x => exact makes1_value (cloneForeign_makes cl hook fsrc x) h
  | nodeCreate self d dest =>
    simp only [Op.newId] at h
    simp only [Op.step]
    split at h
    · rename_i ha; rw [if_pos ha]; exact makes_value (createInsertMomo_makes cap d _) h
    · cases h
  | nest d calls => exact makes_value (nestBuild_makes d calls) h
  | chain d calls => exact makes_value (chainBuild_makes d calls) h
  | _ => cases h

end
end Treena
