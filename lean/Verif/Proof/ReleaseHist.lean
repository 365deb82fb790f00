import Verif.Proof.Release
import Verif.Proof.Taint
import Verif.Proof.MapData
import Verif.Props.DataFree
/-! The release build in forests that may have been destroyed. -/
set_option autoImplicit false

namespace Treena
namespace Release
variable {T U S : Type} {cap : Nat}

/-! ### `detach_single`: the assertion is the last thing that is done -/

theorem hier_detachSingle_state (x : Nat) (h : Hier) : (Hier.detachSingle x h).state = (Treena.Hier.detachSingle x h).state := by
  rcases hier_detachSingle_ref x h with e | ⟨e, s', e1, _⟩
  · rw [e]
  · revert e1
    unfold Treena.Hier.detachSingle Hier.detachSingle
    simp only [M.run_bind]
    cases Treena.Hier.nbrOf x "[precondition] the node must be alive" h with
    | fail e t => exact fun _ => rfl
    | ok nbs t =>
      dsimp only
      cases M.read (fun h => nbs.firstLastChild h) t with
      | fail e t => exact fun _ => rfl
      | ok fl t =>
        dsimp only
        cases fl with
        | none => exact fun _ => rfl
        | some p =>
          obtain ⟨fc, lc⟩ := p
          simp only [M.run_bind]
          cases M.read (fun _ => nbs.getParent) t with
          | fail e t => exact fun _ => rfl
          | ok parent t =>
            dsimp only
            cases parent with
            | none => exact fun _ => rfl
            | some parent =>
              simp only [M.run_bind]
              cases M.read (fun h => nbs.prevSibling h) t with
              | fail e t => exact fun _ => rfl
              | ok prev t =>
                dsimp only
                cases M.read (fun _ => nbs.nextSibling) t with
                | fail e t => exact fun _ => rfl
                | ok next t =>
                  dsimp only
                  cases Treena.Hier.connectTriangle (some parent) prev next t with
                  | fail e t => exact fun _ => rfl
                  | ok u t =>
                    dsimp only
                    cases M.read (fun h => Treena.Hier.rangeNew h fc lc) t with
                    | fail e t => exact fun _ => rfl
                    | ok range t =>
                      dsimp only
                      cases Treena.Hier.transplant range.1 range.2 parent prev next t with
                      | fail e t => exact fun _ => rfl
                      | ok r t =>
                        dsimp only
                        cases r with
                        | error e => exact fun _ => rfl
                        | ok u =>
                          simp only [M.run_bind]
                          cases Treena.Hier.updNbr x "[precondition] the node must be alive"
                              (fun nb => { nb with parent := none, next := none, prevCyc := some x }) t with
                          | fail e t => exact fun _ => rfl
                          | ok u t =>
                            intro _
                            dsimp only
                            unfold Treena.Hier.nbrOf M.read
                            dsimp only
                            cases expect (Treena.Hier.neighbors t x) "[precondition] the node must be alive" with
                            | error e => rfl
                            | ok nb =>
                              dsimp only
                              cases nb.firstChild with
                              | error e => rfl
                              | ok fc => dsimp only; split <;> rfl

theorem detachSingle_state (x : Nat) (f : Treena.Forest T) :
    (Forest.detachSingle x f).state = (Treena.Forest.detachSingle x f).state := by
  have := hier_detachSingle_state x f.hier
  unfold Forest.detachSingle Treena.Forest.detachSingle Treena.Forest.onHier M.zoom
  cases e1 : Hier.detachSingle x f.hier <;> cases e2 : Treena.Hier.detachSingle x f.hier <;>
    rw [e1, e2] at this <;> simp only [Res.state] at this ⊢ <;> rw [this]

/-! ### `remove_hooked_panic_safe` -/

theorem removePanicSafe_eq (hook : Treena.Forest.Hook S T) (x : Nat) :
    Forest.removeHookedPanicSafe hook x = Treena.Forest.removeWith (Forest.closePanicSafe hook) x := by
  unfold Forest.removeHookedPanicSafe
  exact removeWith_eq _ x

theorem closePanicSafe_evolves (hook : Treena.Forest.Hook S T) (x : Nat) :
    Keeps (On1 Evolves) (Forest.closePanicSafe hook x) := by
  unfold Forest.closePanicSafe
  refine Keeps.bind (On1.ord evolves_ord) (onForest_keeps ?_) fun d => callHook_keeps evolves_ord hook d
  refine Keeps.bind evolves_ord ((detach_both x).mono fun _ _ h => h.1) fun _ => ?_
  refine Keeps.bind evolves_ord (onHier_nbrOf_keeps evolves_ord _ _) fun nb => ?_
  exact killStep_evolves x (makeRemoved_cases x _)

theorem closePanicSafe_sub (hook : Treena.Forest.Hook S T) (x : Nat) :
    Keeps (On1 DataSub) (Forest.closePanicSafe hook x) := by
  unfold Forest.closePanicSafe
  refine Keeps.bind (On1.ord dataSub_ord) (onForest_keeps ?_) fun d => callHook_keeps dataSub_ord hook d
  refine Keeps.bind dataSub_ord (onHier_sub _) fun _ => ?_
  refine Keeps.bind dataSub_ord (onHier_sub _) fun nb => ?_
  exact Keeps.bind dataSub_ord (onHier_sub _) fun _ => takeData_sub x

theorem closePanicSafe_comm (g : T → U) {hook : Treena.Forest.Hook S T} {hook' : Treena.Forest.Hook S U}
    (h : ∀ s d, hook' s (g d) = hook s d) (x : Nat) :
    Comm (mapFst g) idf (Forest.closePanicSafe hook x) (Forest.closePanicSafe hook' x) := by
  unfold Forest.closePanicSafe
  refine Comm.bind (G := g) (onForest_comm g ?_) fun d => callHook_comm g h d
  refine Comm.bind (onHier_comm g _) fun _ => ?_
  refine Comm.bind (onHier_comm g _) fun nb => ?_
  exact Comm.bind (onHier_comm g _) fun _ => takeData_comm g x

open Treena.Forest in
theorem closePanicSafe_loc {Q : Nat → Prop} (hook : Treena.Forest.Hook S T) {x : Nat} (hx : Q x) :
    Loc (SameS cap Q) (OutS cap Q) (Release.Forest.closePanicSafe hook x) (fun _ => True) := by
  unfold Release.Forest.closePanicSafe
  refine Loc.bind outS_ord (onForest_loc (good := fun _ => True) ?_) fun d _ => callHook_loc hook d
  refine Loc.bind sameOut_ord (detach_loc hx) fun _ _ => ?_
  refine Loc.bind sameOut_ord (onHier_loc (Hier.nbrOf_loc hx _)) fun nb hn => ?_
  exact Loc.bind sameOut_ord (onHier_loc (Hier.makeRemoved_loc hx _)) fun _ _ => takeData_loc hx

theorem removePanicSafe_evolves (hook : Treena.Forest.Hook S T) (x : Nat) :
    Keeps (On1 Evolves) (Forest.removeHookedPanicSafe hook x) := by
  rw [removePanicSafe_eq]; exact removeWith_evolves (closePanicSafe_evolves hook) x

theorem removePanicSafe_sub (hook : Treena.Forest.Hook S T) (x : Nat) :
    Keeps (On1 DataSub) (Forest.removeHookedPanicSafe hook x) := by
  rw [removePanicSafe_eq]; exact removeWith_sub (closePanicSafe_sub hook) x

theorem removePanicSafe_comm (g : T → U) {hook : Treena.Forest.Hook S T} {hook' : Treena.Forest.Hook S U}
    (h : ∀ s d, hook' s (g d) = hook s d) (x : Nat) :
    Comm (mapFst g) idf (Forest.removeHookedPanicSafe hook x) (Forest.removeHookedPanicSafe hook' x) := by
  rw [removePanicSafe_eq, removePanicSafe_eq]; exact removeWith_comm g (closePanicSafe_comm g h) x

theorem removePanicSafe_loc {Q : Nat → Prop} (hook : Treena.Forest.Hook S T) {x : Nat} (hx : Q x) :
    Loc (SameS cap Q) (OutS cap Q) (Forest.removeHookedPanicSafe hook x) (fun _ => True) := by
  rw [removePanicSafe_eq]; exact Treena.Forest.removeWith_loc (fun _ h => closePanicSafe_loc hook h) hx

/-! ### All calls -/

/-- A call is the same in both builds, as to the forest it leaves, unless it is `remove_hooked_panic_safe`. -/
theorem step_same (f : Treena.Forest T) (op : Op T) (h : ∀ S hook c x, op ≠ .removeHookedPanicSafe S hook c x) :
    step cap f op = Op.step cap f op := by
  cases op with
  | removeHookedPanicSafe S hook c x => exact absurd rfl (h S hook c x)
  | detachSingle x => exact detachSingle_state x f
  | remove x => simp only [step, Op.step, remove_eq]
  | removeHooked S hook c x => simp only [step, Op.step, removeHooked_eq]
  | cloneLocal S cl hook c x => simp only [step, Op.step, cloneLocal_eq]
  | _ => rfl

theorem step_split (f : Treena.Forest T) (op : Op T) {P : Treena.Forest T → Prop} (h1 : P (Op.step cap f op))
    (h2 : ∀ S hook c x, op = .removeHookedPanicSafe S hook c x → P (Op.forestOf (Forest.removeHookedPanicSafe hook x (f, c)))) :
    P (step cap f op) := by
  cases op with
  | removeHookedPanicSafe S hook c x => exact h2 S hook c x rfl
  | _ => rw [step_same f _ (by intros; exact nofun)]; exact h1

theorem step_evolves (f : Treena.Forest T) (op : Op T) : Evolves f (step cap f op) :=
  step_split f op (Treena.step_evolves f op) fun _ hook c x _ => removePanicSafe_evolves hook x (f, c)

theorem run_evolves (ops : List (Op T)) : ∀ f : Treena.Forest T, Evolves f (run cap f ops) := by
  induction ops with
  | nil => intro f; exact evolves_ord.refl f
  | cons op ops ih => intro f; exact evolves_ord.trans (step_evolves f op) (ih _)

theorem step_fits (f : Treena.Forest T) (op : Op T) : Fits cap f (step cap f op) := by
  refine step_split f op (Treena.step_fits f op) fun _ hook c x e => ?_
  intro hc
  refine ⟨(removePanicSafe_evolves hook x (f, c) hc).1, fun hle => ?_⟩
  have : (Op.forestOf (Forest.removeHookedPanicSafe hook x (f, c))).issued = f.issued := (removePanicSafe_sub hook x (f, c)).1
  rw [this]; exact hle

theorem run_fits (ops : List (Op T)) : ∀ f : Treena.Forest T, Fits cap f (run cap f ops) := by
  induction ops with
  | nil => intro f; exact fits_ord.refl f
  | cons op ops ih => intro f; exact fits_ord.trans (step_fits f op) (ih _)

theorem step_local {Q : Nat → Prop} {f g : Treena.Forest T} (h : SameIn cap Q f g) (op : Op T) (hq : ∀ x ∈ op.ids, Q x) :
    SameIn cap Q (step cap f op) (step cap g op) ∧ SameOut cap Q f (step cap f op) := by
  cases op with
  | removeHookedPanicSafe S hook c x =>
    exact (Treena.stateS_loc h (removePanicSafe_loc _ (hq x (by simp [Op.ids])))).2
  | _ =>
    rw [step_same f _ (by intros; exact nofun), step_same g _ (by intros; exact nofun)]
    exact (Op.step_local cap h _ hq).2

theorem step_later {f : Treena.Forest T} (hc : Coherent f) (op : Op T) : Coherent (step cap f op) ∧ Later f (step cap f op) :=
  ⟨(step_evolves f op hc).1, (step_evolves f op hc).2⟩

theorem step_bounded {f : Treena.Forest T} (hc : Coherent f) (hb : Bounded f) (op : Op T)
    (hcap : (step cap f op).issued ≤ cap) : Bounded (step cap f op) := by
  revert hcap
  refine step_split (cap := cap) (P := fun g => g.issued ≤ cap → Bounded g) f op (fun h => Treena.step_bounded hc hb op h) fun S hook c x e => ?_
  intro hcap
  have hnew := (step_later (cap := cap) hc op)
  subst e
  obtain ⟨hc', hl⟩ := hnew
  have hiss : (step cap f (.removeHookedPanicSafe S hook c x)).issued = f.issued := (removePanicSafe_sub hook x (f, c)).1
  by_cases hx : f.issued ≤ x
  · have hd := dead_of_ge hx
    have : Forest.removeHookedPanicSafe hook x (f, c) = .ok () (f, c) := by
      rw [removePanicSafe_eq]
      unfold Treena.Forest.removeWith
      have ha : f.hier.isAlive x = false := by rw [← hc.live, hd]
      simp only [M.run_bind, M.read, ha]; rfl
    rw [this]; exact hb
  · have hs : SameIn f.issued (fun y => y < f.issued) f f := sameIn_refl ⟨fun y _ nb hn z hz => by
      have := hb y nb hn z hz
      rw [← hc.len] at this; exact this, fun y _ h => h⟩
    have h2 := (step_local (cap := f.issued) hs (.removeHookedPanicSafe S hook c x) fun y hy => by
      simp only [Op.ids, List.mem_singleton] at hy; subst hy; omega).1
    intro y nb hn z hz
    have hy : y < f.issued := by
      apply Classical.byContradiction
      intro hge
      have hn : (step cap f (.removeHookedPanicSafe S hook c x)).hier.neighbors y = some nb := hn
      rw [hc'.neighbors_dead (dead_of_ge (by rw [hiss]; omega))] at hn
      cases hn
    have h3 : z < f.issued := h2.separate.closed y hy nb hn z hz
    have h4 := hc'.len
    have h5 : (step cap f (.removeHookedPanicSafe S hook c x)).data.length = f.issued := hiss
    have h6 : z < (step cap f (.removeHookedPanicSafe S hook c x)).hier.nbrs.length := by omega
    exact h6

theorem tame (op : Op T) : Tame cap op.ids (fun f => step cap f op) :=
  ⟨fun _ h => step_later h op, fun f h1 h2 => ((step_fits f op) h1).2 h2, fun _ h1 h2 h3 => step_bounded h1 h2 op h3,
    fun h hq => step_local h op hq⟩

theorem step_comm (g : T → U) {op : Op T} {op' : Op U} (h : Op.Same g op op') (f : Treena.Forest T) :
    step cap (f.mapData g) op' = (step cap f op).mapData g := by
  cases h with
  | removeHookedPanicSafe hook hook' c x hh =>
    have h := removePanicSafe_comm g hh x (f, c)
    simp only [step, Op.forestOf]
    rw [show (f.mapData g, c) = mapFst g (f, c) from rfl, h, map2_state]
    rfl
  | _ =>
    rw [step_same _ _ (by intros; exact nofun), step_same _ _ (by intros; exact nofun)]
    exact (C49_one_call g (by constructor <;> assumption) f).1

end Release
end Treena
