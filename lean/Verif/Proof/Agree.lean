import Verif.Proof.Capacity
import Verif.Proof.FuelClone
import Verif.Spec.Clone
/-! A run with many possible IDs that ends up using few of them is also a run with few possible IDs. -/
set_option autoImplicit false

namespace Treena
variable {T : Type}

/-- `m'` never lowers the count `iss`, and when it ends with a count of at most `cap` then `m` does the same. -/
def Lim {σ α : Type} (iss : σ → Nat) (cap : Nat) (m m' : M σ α) : Prop :=
  ∀ st, iss st ≤ iss (m' st).state ∧ (iss (m' st).state ≤ cap → m st = m' st)

namespace Lim
variable {σ τ α β : Type} {iss : σ → Nat} {cap : Nat}

theorem same {m : M σ α} (h : ∀ st, iss st ≤ iss (m st).state) : Lim iss cap m m := fun st => ⟨h st, fun _ => rfl⟩
theorem pure (a : α) : Lim iss cap (Pure.pure a : M σ α) (Pure.pure a) := same fun _ => Nat.le_refl _
theorem throw (e : Fail) : Lim iss cap (M.throw e : M σ α) (M.throw e) := same fun _ => Nat.le_refl _
theorem panic (e : String) : Lim iss cap (M.panic e : M σ α) (M.panic e) := same fun _ => Nat.le_refl _
theorem read (f : σ → R α) : Lim iss cap (M.read f) (M.read f) := same fun st => by
  unfold M.read; cases f st <;> exact Nat.le_refl _
theorem modify {f : σ → σ} (h : ∀ st, iss (f st) = iss st) : Lim iss cap (M.modify f) (M.modify f) := same fun st => by
  simp only [M.modify, Res.state, h]; exact Nat.le_refl _

theorem bind {m m' : M σ α} {k k' : α → M σ β} (hm : Lim iss cap m m') (hk : ∀ a, Lim iss cap (k a) (k' a)) :
    Lim iss cap (m >>= k) (m' >>= k') := fun st => by
  obtain ⟨h1, h2⟩ := hm st
  rw [M.run_bind, M.run_bind]
  cases h : m' st with
  | fail e s' =>
    rw [h] at h1 h2
    exact ⟨h1, fun hle => by rw [h2 hle]⟩
  | ok a s' =>
    rw [h] at h1 h2
    obtain ⟨h3, h4⟩ := hk a s'
    exact ⟨Nat.le_trans h1 h3, fun hle => by rw [h2 (Nat.le_trans h3 hle)]; exact h4 hle⟩

theorem zoom {m m' : M σ α} {get : τ → σ} {set : σ → τ → τ} {iss' : τ → Nat} (hm : Lim iss cap m m')
    (hg : ∀ t, iss' t = iss (get t)) (hs : ∀ t s, iss' (set s t) = iss s) :
    Lim iss' cap (M.zoom get set m) (M.zoom get set m') := fun t => by
  obtain ⟨h1, h2⟩ := hm (get t)
  unfold M.zoom
  cases h : m' (get t) with
  | fail e s' =>
    rw [h] at h1 h2
    simp only [Res.state, hg t, hs] at h1 h2 ⊢
    exact ⟨h1, fun hle => by rw [h2 hle]⟩
  | ok a s' =>
    rw [h] at h1 h2
    simp only [Res.state, hg t, hs] at h1 h2 ⊢
    exact ⟨h1, fun hle => by rw [h2 hle]⟩

end Lim

/-- Number of records. -/
def Forest.slots (f : Forest T) : Nat := f.hier.nbrs.length

section
variable {cap cap' : Nat}

theorem lim_onHier {α : Type} {m : M Hier α} (hm : Keeps Hier.SameLive m) :
    Lim Forest.slots cap (Forest.onHier m : M (Forest T) α) (Forest.onHier m) := by
  refine Lim.zoom (iss := fun h : Hier => h.nbrs.length) (Lim.same fun h => ?_) (fun _ => rfl) fun _ _ => rfl
  exact Nat.le_of_eq (hm h).len.symm

theorem lim_create (hcc : cap ≤ cap') :
    Lim Forest.slots cap (Forest.onHier (Hier.createRoot cap) : M (Forest T) Nat) (Forest.onHier (Hier.createRoot cap')) := by
  refine Lim.zoom (iss := fun h : Hier => h.nbrs.length) (fun h => ?_) (fun _ => rfl) fun _ _ => rfl
  by_cases h1 : h.nbrs.length < cap'
  · have e : ∀ c, h.nbrs.length < c → Hier.createRoot c h =
        .ok h.nbrs.length { nbrs := h.nbrs ++ [Neighbors.newRoot h.nbrs.length] } := fun c hc => by
      simp [Hier.createRoot, Hier.fromUsize, hc]
    rw [e cap' h1]
    simp only [Res.state, List.length_append, List.length_singleton]
    exact ⟨by omega, fun hle => e cap (by omega)⟩
  · have e : ∀ c, ¬ h.nbrs.length < c → Hier.createRoot c h = .fail overflow h := fun c hc => by
      simp [Hier.createRoot, Hier.fromUsize, hc, overflow]
    rw [e cap' h1]
    exact ⟨Nat.le_refl _, fun _ => e cap (by omega)⟩

theorem lim_pushData (d : T) : Lim Forest.slots cap (Forest.pushData d) (Forest.pushData d) :=
  Lim.same fun _ => Nat.le_refl _

theorem lim_createRoot (hcc : cap ≤ cap') (d : T) :
    Lim Forest.slots cap (Forest.createRoot cap d) (Forest.createRoot cap' d) := by
  unfold Forest.createRoot
  refine Lim.bind (lim_create hcc) fun id => Lim.bind (Lim.read _) fun n => ?_
  first
  | (split
     · exact Lim.panic _
     · exact Lim.bind (lim_pushData d) fun _ => Lim.pure _)
  | exact Lim.bind (Lim.read _) fun _ => Lim.bind (lim_pushData d) fun _ => Lim.pure _

theorem lim_createInsertMomo (hcc : cap ≤ cap') (d : T) (dest : InsertAs) :
    Lim Forest.slots cap (Forest.createInsertMomo cap d dest) (Forest.createInsertMomo cap' d dest) := by
  rw [createInsertMomo_eq, createInsertMomo_eq]
  refine Lim.bind (Lim.read _) fun v => ?_
  split
  · exact Lim.panic _
  · unfold pushRoot
    refine Lim.bind (Lim.bind (lim_create hcc) fun _ => Lim.bind (lim_pushData d) fun _ => Lim.pure _) fun id => ?_
    refine Lim.bind (lim_onHier (Hier.insert_sameLive id dest)) fun r => ?_
    split
    · exact Lim.panic _
    · exact Lim.pure _

/-! ### Copies -/

/-- Number of records of the forest beside a callback state. -/
def slots1 {S : Type} (p : Forest T × S) : Nat := p.1.slots

theorem lim_onForest {S α : Type} {m m' : M (Forest T) α} (hm : Lim Forest.slots cap m m') :
    Lim (slots1 (S := S)) cap (Forest.onForest m) (Forest.onForest m') :=
  Lim.zoom hm (fun _ => rfl) fun _ _ => rfl

theorem lim_callMap {S : Type} (hook : Forest.MapHook S) (a b : Nat) :
    Lim (slots1 (T := T)) cap (Forest.callMap hook a b) (Forest.callMap hook a b) := Lim.same fun st => by
  obtain ⟨f, σ⟩ := st
  unfold Forest.callMap
  simp only []
  cases hook σ a b <;> exact Nat.le_refl _

theorem lim_nbrOf (x : Nat) (msg : String) :
    Lim Forest.slots cap (Forest.onHier (Hier.nbrOf x msg) : M (Forest T) Neighbors) (Forest.onHier (Hier.nbrOf x msg)) :=
  lim_onHier (Hier.nbrOf_keeps Hier.sameLive_ord x msg)

theorem lim_cloneNextNode {τ : Type} (hcc : cap ≤ cap') (cl : T → Option T) (src : Forest.CloneSrc T τ) :
    ∀ (fuel cur : Nat) (tr : τ), Lim Forest.slots cap (Forest.cloneNextNode cap cl src fuel cur tr)
      (Forest.cloneNextNode cap' cl src fuel cur tr)
  | 0, _, _ => by unfold Forest.cloneNextNode; exact Lim.throw _
  | fuel + 1, cur, tr => by
    unfold Forest.cloneNextNode
    refine Lim.bind (Lim.read _) fun p => ?_
    obtain ⟨ev, tr'⟩ := p
    simp only []
    split
    · exact Lim.panic _
    · refine Lim.bind (Lim.read _) fun d => ?_
      exact Lim.bind (lim_createInsertMomo hcc d _) fun _ => Lim.pure _
    · refine Lim.bind (lim_nbrOf _ _) fun nb => ?_
      refine Lim.bind (Lim.read _) fun p => ?_
      split
      · exact lim_cloneNextNode hcc cl src fuel _ _
      · exact Lim.pure _

theorem lim_cloneLoop {S τ : Type} (hcc : cap ≤ cap') (cl : T → Option T) (src : Forest.CloneSrc T τ)
    (hook : Forest.MapHook S) (I : Nat) : ∀ (fuel cur : Nat) (tr : τ),
    Lim slots1 cap (Forest.cloneLoop cap cl src hook I fuel cur tr) (Forest.cloneLoop cap' cl src hook I fuel cur tr)
  | 0, _, _ => by unfold Forest.cloneLoop; exact Lim.throw _
  | fuel + 1, cur, tr => by
    unfold Forest.cloneLoop
    refine Lim.bind (lim_onForest (lim_cloneNextNode hcc cl src _ _ _)) fun p => ?_
    obtain ⟨o, cur', tr'⟩ := p
    simp only []
    split
    · exact Lim.pure _
    · refine Lim.bind (lim_callMap hook _ _) fun _ => ?_
      exact lim_cloneLoop hcc cl src hook I fuel _ _

theorem lim_cloneLocal {S : Type} (hcc : cap ≤ cap') (cl : T → Option T) (hook : Forest.MapHook S) (x : Nat) :
    Lim slots1 cap (Forest.cloneLocalTreeWithIdMapping cap cl hook x)
      (Forest.cloneLocalTreeWithIdMapping cap' cl hook x) := by
  -- both with the fuel for the larger ID type
  have hF : ∃ i, Forest.cloneFuel cap' cap' = Forest.cloneFuel cap cap + i :=
    Nat.exists_eq_add_of_le (Nat.mul_le_mul (by omega) (by omega))
  obtain ⟨i, hi⟩ := hF
  have e1 := cloneLocal_fuel (cap := cap) (cl := cl) hook x i (cap' - cap)
  have e2 := cloneLocal_fuel (cap := cap') (cl := cl) hook x 0 0
  rw [show cap + 1 + (cap' - cap) = cap' + 1 by omega, ← hi] at e1
  rw [← e1, ← e2]
  unfold cloneLocalFueled
  refine Lim.bind (Lim.read _) fun d => Lim.bind (Lim.read _) fun d' => ?_
  refine Lim.bind (lim_onForest (lim_createRoot hcc _)) fun r => ?_
  refine Lim.bind (lim_callMap hook _ _) fun _ => ?_
  refine Lim.bind (Lim.read _) fun tr => Lim.bind (Lim.read _) fun p => ?_
  obtain ⟨_, tr⟩ := p
  simp only []
  refine Lim.bind (lim_cloneLoop hcc cl _ hook _ _ _ _) fun q => ?_
  obtain ⟨cur, _⟩ := q
  simp only []
  split
  · exact Lim.panic _
  · exact Lim.pure _

theorem lim_cloneForeign {S : Type} (hcc : cap ≤ cap') (cl : T → Option T) (hook : Forest.MapHook S)
    (fsrc : Forest T) (x : Nat) :
    Lim slots1 cap (Forest.cloneForeignTreeWithIdMapping cap cl hook fsrc x)
      (Forest.cloneForeignTreeWithIdMapping cap' cl hook fsrc x) := by
  have hF : ∃ i, Forest.cloneFuel cap' fsrc.hier.nbrs.length = Forest.cloneFuel cap fsrc.hier.nbrs.length + i :=
    Nat.exists_eq_add_of_le (Nat.mul_le_mul_right _ (by omega))
  obtain ⟨i, hi⟩ := hF
  have e1 := cloneForeign_fuel (cap := cap) (cl := cl) hook fsrc x i (cap' - cap)
  have e2 := cloneForeign_fuel (cap := cap') (cl := cl) hook fsrc x 0 0
  rw [show cap + 1 + (cap' - cap) = cap' + 1 by omega, ← hi] at e1
  rw [← e1, ← e2]
  unfold cloneForeignFueled
  refine Lim.bind (Lim.read _) fun d => Lim.bind (Lim.read _) fun d' => ?_
  refine Lim.bind (lim_onForest (lim_createRoot hcc _)) fun r => ?_
  refine Lim.bind (lim_callMap hook _ _) fun _ => ?_
  refine Lim.bind (Lim.read _) fun tr => Lim.bind (Lim.read _) fun p => ?_
  obtain ⟨_, tr⟩ := p
  simp only []
  refine Lim.bind (lim_cloneLoop hcc cl _ hook _ _ _ _) fun q => ?_
  obtain ⟨cur, tr⟩ := q
  simp only []
  split
  · exact Lim.panic _
  · refine Lim.bind (Lim.read _) fun q => ?_
    obtain ⟨last, _⟩ := q
    simp only []
    split
    · exact Lim.panic _
    · exact Lim.pure _

/-! ### Builders -/

theorem lim_nest_addChild (hcc : cap ≤ cap') (d : T) :
    Lim (fun b : Nest T => b.forest.slots) cap (Nest.addChild cap d) (Nest.addChild cap' d) := by
  unfold Nest.addChild
  refine Lim.bind (Lim.zoom (lim_createRoot hcc d) (fun _ => rfl) fun _ _ => rfl) fun id => ?_
  refine Lim.bind ?_ fun _ => Lim.modify fun _ => rfl
  have key : ∀ dest, Lim (fun b : Nest T => b.forest.slots) cap
      (do let r ← Nest.onForest (Forest.insert id dest); Nest.expectOk r Nest.addMsg : M (Nest T) Unit)
      (do let r ← Nest.onForest (Forest.insert id dest); Nest.expectOk r Nest.addMsg : M (Nest T) Unit) := by
    intro dest
    refine Lim.bind (Lim.zoom (lim_onHier (Hier.insert_sameLive id dest)) (fun _ => rfl) fun _ _ => rfl) fun r => ?_
    unfold Nest.expectOk
    split
    · exact Lim.pure _
    · exact Lim.panic _
  refine Lim.same fun b => ?_
  unfold Nest.place
  cases b.current with
  | none => exact (key _ b).1
  | some c => exact (key _ b).1

mutual
theorem lim_nest_exec (hcc : cap ≤ cap') : ∀ c : NestCall T,
    Lim (fun b : Nest T => b.forest.slots) cap (NestCall.exec cap c) (NestCall.exec cap' c)
  | .addChild d => by unfold NestCall.exec; exact lim_nest_addChild hcc d
  | .createTree d cs => by
    unfold NestCall.exec Nest.createTree
    refine Lim.bind (lim_nest_addChild hcc d) fun _ => ?_
    refine Lim.bind (Lim.read _) fun n => ?_
    refine Lim.bind (Lim.modify fun _ => rfl) fun _ => ?_
    refine Lim.bind (Lim.read _) fun o => ?_
    refine Lim.bind (Lim.modify fun _ => rfl) fun _ => ?_
    refine Lim.bind (lim_nest_execL hcc cs) fun _ => ?_
    exact Lim.bind (Lim.modify fun _ => rfl) fun _ => Lim.modify fun _ => rfl
  | .boom => by unfold NestCall.exec; exact Lim.panic _
theorem lim_nest_execL (hcc : cap ≤ cap') : ∀ cs : List (NestCall T),
    Lim (fun b : Nest T => b.forest.slots) cap (NestCall.execL cap cs) (NestCall.execL cap' cs)
  | [] => by unfold NestCall.execL; exact Lim.pure _
  | c :: cs => by unfold NestCall.execL; exact Lim.bind (lim_nest_exec hcc c) fun _ => lim_nest_execL hcc cs
end

theorem lim_nestBuild (hcc : cap ≤ cap') (d : T) (cs : List (NestCall T)) :
    Lim Forest.slots cap (nestBuild cap d cs) (nestBuild cap' d cs) := by
  intro f
  obtain ⟨h1, h2⟩ := lim_createRoot hcc d f
  unfold nestBuild Nest.new
  cases h : Forest.createRoot cap' d f with
  | fail e f' => rw [h] at h1 h2; exact ⟨h1, fun hle => by rw [h2 hle]⟩
  | ok r f' =>
    rw [h] at h1 h2
    simp only []
    obtain ⟨h3, h4⟩ := lim_nest_execL hcc cs { forest := f', root := r, current := none }
    cases h5 : NestCall.execL cap' cs { forest := f', root := r, current := none } <;> rw [h5] at h3 h4 <;>
      exact ⟨Nat.le_trans h1 h3, fun hle => by rw [h2 (Nat.le_trans h3 hle)]; simp only [h4 hle]⟩

theorem lim_chain_exec (hcc : cap ≤ cap') (c : ChainCall T) :
    Lim (fun b : Chain T => b.forest.slots) cap (ChainCall.exec cap c) (ChainCall.exec cap' c) := by
  have key : ∀ d dest, Lim (fun b : Chain T => b.forest.slots) cap
      (do
        let new ← Chain.onForest (Forest.createInsert cap d dest)
        M.modify fun b => { b with current := new } : M (Chain T) Unit)
      (do
        let new ← Chain.onForest (Forest.createInsert cap' d dest)
        M.modify fun b => { b with current := new } : M (Chain T) Unit) := by
    intro d dest
    exact Lim.bind (Lim.zoom (lim_createInsertMomo hcc d dest) (fun _ => rfl) fun _ _ => rfl)
      fun _ => Lim.modify fun _ => rfl
  cases c with
  | child d => exact fun b => key d _ b
  | sibling d => exact fun b => key d _ b
  | parent =>
    unfold ChainCall.exec Chain.parent
    exact Lim.bind (Lim.read _) fun p => Lim.bind (Lim.read _) fun _ => Lim.modify fun _ => rfl
  | tryParent =>
    unfold ChainCall.exec Chain.tryParent
    refine Lim.bind (Lim.bind (Lim.read _) fun p => ?_) fun _ => Lim.pure _
    split
    · exact Lim.pure _
    · exact Lim.bind (Lim.modify fun _ => rfl) fun _ => Lim.pure _

theorem lim_chain_execL (hcc : cap ≤ cap') : ∀ cs : List (ChainCall T),
    Lim (fun b : Chain T => b.forest.slots) cap (ChainCall.execL cap cs) (ChainCall.execL cap' cs)
  | [] => by unfold ChainCall.execL; exact Lim.pure _
  | c :: cs => by unfold ChainCall.execL; exact Lim.bind (lim_chain_exec hcc c) fun _ => lim_chain_execL hcc cs

theorem lim_chainBuild (hcc : cap ≤ cap') (d : T) (cs : List (ChainCall T)) :
    Lim Forest.slots cap (chainBuild cap d cs) (chainBuild cap' d cs) := by
  intro f
  obtain ⟨h1, h2⟩ := lim_createRoot hcc d f
  unfold chainBuild Chain.new
  cases h : Forest.createRoot cap' d f with
  | fail e f' => rw [h] at h1 h2; exact ⟨h1, fun hle => by rw [h2 hle]⟩
  | ok r f' =>
    rw [h] at h1 h2
    simp only []
    obtain ⟨h3, h4⟩ := lim_chain_execL hcc cs { forest := f', root := r, current := r }
    cases h5 : ChainCall.execL cap' cs { forest := f', root := r, current := r } <;> rw [h5] at h3 h4 <;>
      exact ⟨Nat.le_trans h1 h3, fun hle => by rw [h2 (Nat.le_trans h3 hle)]; simp only [h4 hle]⟩

end
end Treena
