import Verif.Model.Proxy
import Verif.Props.History
import Verif.Props.Remove
import Verif.Props.DataFree
import Verif.Props.SampleRun
/-!
# `NodeMut` proxies (C50), `Forest::clone` (C51), `remove` when `Drop` panics (C40)
-/
set_option autoImplicit false

namespace Treena
variable {T : Type} {cap : Nat} {f : Forest T} {s : Shape}

/-- The value read back after the calls: the last one written. -/
def NodeMut.lastWritten (d : T) (calls : List (NodeMut.Call T)) : T :=
  calls.foldl (fun d c => match c with | .write v => v | _ => d) d

theorem ext_getData {f g : Forest T} (h : DataExt f g) {x : Nat} {d : T} (hx : f.getData x = some d) :
    g.getData x = some d := by
  obtain ⟨l, h⟩ := h
  have h0 := getData_list hx
  have hlt : x < f.data.length := (List.getElem?_eq_some_iff.1 h0).1
  unfold Forest.getData
  rw [h, List.getElem?_append_left hlt, h0]; rfl

theorem call_ext (cap self : Nat) (f : Forest T) (c : NodeMut.Call T) (hc : ∀ v, c ≠ .write v) :
    DataExt f (c.step cap self f) := by
  cases c with
  | create d dest => exact (createInsertMomo_both cap d _ f).2
  | adopt x dest =>
    show DataExt f (NodeMut.adopt self x dest f).state
    unfold NodeMut.adopt
    have h := onHier_data (T := T) (Hier.insert x (dest.insertWithAnchor self)) f
    rw [M.run_bind]
    cases h1 : NodeMut.tryAdopt self x dest f with
    | ok r f' =>
      unfold NodeMut.tryAdopt at h1
      rw [h1] at h
      cases r <;> exact ⟨[], by simpa [Res.state] using h⟩
    | fail e f' =>
      unfold NodeMut.tryAdopt at h1
      rw [h1] at h
      exact ⟨[], by simpa [Res.state] using h⟩
  | tryAdopt x dest => exact ⟨[], by rw [List.append_nil]; exact onHier_data _ f⟩
  | detach => exact ⟨[], by rw [List.append_nil]; exact onHier_data _ f⟩
  | detachSingle => exact ⟨[], by rw [List.append_nil]; exact onHier_data _ f⟩
  | write v => exact absurd rfl (hc v)

theorem write_run (self : Nat) (v : T) {f : Forest T} {d : T} (hd : f.getData self = some d) :
    ∃ f', NodeMut.write self v f = .ok () f' ∧ f'.getData self = some v ∧ f'.hier = f.hier ∧
      ∀ x, x ≠ self → f'.getData x = f.getData x := by
  obtain ⟨f', h1, h2, h3, h4⟩ := C34_data_mut f self v
  rw [hd] at h1 h4
  refine ⟨f', ?_, h4, h2, h3⟩
  unfold NodeMut.write
  rw [M.run_bind, h1]; rfl

/-- One call keeps the data of every node, but for the written one. -/
theorem call_getData (cap self : Nat) (c : NodeMut.Call T) {f : Forest T} {d : T} (hd : f.getData self = some d) :
    (c.step cap self f).getData self = some (NodeMut.lastWritten d [c]) ∧
    ∀ x e, x ≠ self → f.getData x = some e → (c.step cap self f).getData x = some e := by
  by_cases hc : ∃ v, c = .write v
  · obtain ⟨v, rfl⟩ := hc
    obtain ⟨f', h1, h2, _, h3⟩ := write_run self v hd
    simp only [NodeMut.Call.step, h1, Res.state]
    exact ⟨h2, fun x e hx he => by rw [h3 x hx]; exact he⟩
  · have hc' : ∀ v, c ≠ .write v := fun v h => hc ⟨v, h⟩
    have h := call_ext cap self f c hc'
    refine ⟨?_, fun x e _ he => ext_getData h he⟩
    have : NodeMut.lastWritten d [c] = d := by
      cases c <;> first | rfl | exact absurd rfl (hc' _)
    rw [this]; exact ext_getData h hd

/-- **C50**.  A `NodeMut` (obtained while its node `self` was live) stays usable whatever is done through it: after
any calls of its methods taking `&mut self`, whether they return or panic, in every state of the forest, consistent
or not, `node()`, `data()`, `data_mut()` and `into_data_ref_mut()` do not panic; `data()` is the last value written
(the original one if nothing was written); a further write returns and changes only this datum; and no live node has
died or lost its data meanwhile. -/
theorem C50_proxy_stays_valid (cap self : Nat) (f : Forest T) (hs : f.isAlive self = true)
    (calls : List (NodeMut.Call T)) :
    ∃ d, f.getData self = some d ∧
      NodeMut.node self (NodeMut.Call.run cap self f calls) = .ok self ∧
      NodeMut.data self (NodeMut.Call.run cap self f calls) = .ok (NodeMut.lastWritten d calls) ∧
      (∀ v, ∃ g, NodeMut.write self v (NodeMut.Call.run cap self f calls) = .ok () g ∧
        NodeMut.data self g = .ok v ∧ g.hier = (NodeMut.Call.run cap self f calls).hier ∧
        ∀ x, x ≠ self → g.getData x = (NodeMut.Call.run cap self f calls).getData x) ∧
      ∀ x e, x ≠ self → f.getData x = some e → (NodeMut.Call.run cap self f calls).getData x = some e := by
  obtain ⟨d, hd⟩ : ∃ d, f.getData self = some d := by
    have := getData_isSome_isAlive f self
    rw [hs] at this
    exact Option.isSome_iff_exists.1 this
  refine ⟨d, hd, ?_⟩
  have key : ∀ (calls : List (NodeMut.Call T)) (f : Forest T) (d : T), f.getData self = some d →
      (NodeMut.Call.run cap self f calls).getData self = some (NodeMut.lastWritten d calls) ∧
      ∀ x e, x ≠ self → f.getData x = some e → (NodeMut.Call.run cap self f calls).getData x = some e := by
    intro calls
    induction calls with
    | nil => intro f d hd; exact ⟨hd, fun _ _ _ h => h⟩
    | cons c cs ih =>
      intro f d hd
      obtain ⟨h1, h2⟩ := call_getData cap self c hd
      obtain ⟨h3, h4⟩ := ih _ _ h1
      exact ⟨h3, fun x e hx he => h4 x e hx (h2 x e hx he)⟩
  obtain ⟨h1, h2⟩ := key calls f d hd
  refine ⟨?_, ?_, fun v => ?_, h2⟩
  · have : (NodeMut.Call.run cap self f calls).isAlive self = true := by
      rw [← getData_isSome_isAlive, h1]; rfl
    simp only [NodeMut.node, Forest.node, this]; rfl
  · simp only [NodeMut.data, h1]; rfl
  · obtain ⟨g, h3, h4, h5, h6⟩ := write_run self v h1
    exact ⟨g, h3, by simp only [NodeMut.data, h4]; rfl, h5, h6⟩

/-- The sample: the node 2 detached, written, used for a creation that panics (2 is a root then), detached again. -/
example : NodeMut.data 2 (NodeMut.Call.run 100 2 Sample.built
    [.detach, .write 99, .create 5 .nextSibling, .adopt 2 .firstChild, .detachSingle]) = .ok 99 := by
  obtain ⟨d, _, _, h, _⟩ := C50_proxy_stays_valid 100 2 Sample.built (by decide)
    [.detach, .write 99, .create 5 .nextSibling, .adopt 2 .firstChild, .detachSingle]
  exact h

/-- C50: `NodeMut::debug_print` is `Forest::debug_print` of the node. -/
theorem C50_debug_print {S : Type} (put : S → Text → Except S S) (disp : T → Fmt) (self : Nat)
    (hs : f.isAlive self = true) (σ : S) :
    NodeMut.debugPrint put disp self f σ = Forest.debugPrint put disp f self σ := by
  simp only [NodeMut.debugPrint, NodeMut.node, Forest.node, hs, Bool.not_true, Bool.false_eq_true, if_false,
    expect_some]

/-! ### `Forest::clone` -/

theorem clone_eq_mapData (cl : T → T) (f : Forest T) : f.clone cl = f.mapData cl := rfl

theorem Models.mapData {U : Type} (hm : Models f s) (g : T → U) : Models (f.mapData g) s :=
  ⟨hm.valid, hm.repr, by rw [← hm.dataLen]; simp [Forest.mapData],
   fun x => by rw [mapData_getData]; simp [hm.dataAlive x]⟩

/-- **C51**.  `forest.clone()` is a forest with the same live nodes under the same IDs, the same parents and child
lists, and cloned data. -/
theorem C51_clone (hm : Models f s) (cl : T → T) :
    Models (f.clone cl) s ∧ Describes (f.clone cl) s ∧ ∀ x, (f.clone cl).getData x = (f.getData x).map cl :=
  ⟨hm.mapData cl, (hm.mapData cl).describes, fun x => mapData_getData cl f x⟩

/-- **C51** with a `T::clone` that may panic: there is a clone exactly if `T::clone` returns for the data of all live
nodes; else the call panics. -/
theorem C51_clone_panics (hm : Models f s) (cl : T → Option T) :
    ((∀ x d, f.getData x = some d → (cl d).isSome = true) ∧
      ∃ g, f.tryClone cl = .ok g ∧ Models g s ∧ ∀ x, g.getData x = (f.getData x).bind cl) ∨
    ((∃ x d, f.getData x = some d ∧ cl d = none) ∧ f.tryClone cl = .error (.panic "T::clone panicked")) := by
  have hget : ∀ x d, f.getData x = some d → some d ∈ f.data := fun x d hd => by
    unfold Forest.getData at hd
    cases he : f.data[x]? with
    | none => rw [he] at hd; cases hd
    | some o => rw [he] at hd; change o = some d at hd; subst hd; exact List.mem_of_getElem? he
  unfold Forest.tryClone
  split
  · rename_i hall
    rw [List.all_eq_true] at hall
    refine .inl ⟨fun x d hd => by simpa using hall _ (hget x d hd), _, rfl, ?_⟩
    have h2 : f.mapData (fun d => (cl d).getD d) = ⟨f.hier, f.data.map (·.bind cl)⟩ := by
      unfold Forest.mapData
      congr 1
      refine List.map_congr_left fun o ho => ?_
      have := hall o ho
      cases o with
      | none => rfl
      | some d =>
        obtain ⟨c, hc⟩ := Option.isSome_iff_exists.1 (by simpa using this)
        simp [hc]
    rw [← h2]
    refine ⟨hm.mapData _, fun x => ?_⟩
    rw [mapData_getData]
    cases hd : f.getData x with
    | none => rfl
    | some d =>
      obtain ⟨c, hc⟩ := Option.isSome_iff_exists.1 (by simpa using hall _ (hget x d hd))
      simp [hc]
  · rename_i hall
    refine .inr ⟨?_, rfl⟩
    rw [Bool.not_eq_true, List.all_eq_false] at hall
    obtain ⟨o, ho, hc⟩ := hall
    cases o with
    | none => simp at hc
    | some d =>
      obtain ⟨x, hx⟩ := List.getElem?_of_mem ho
      refine ⟨x, d, by unfold Forest.getData; rw [hx]; rfl, by simpa using hc⟩

/-- **C51**, also without assuming consistency: the accessors of the clone answer as those of the original. -/
theorem C51_clone_reads (cl : T → T) (f : Forest T) (x : Nat) :
    (f.clone cl).isAlive x = f.isAlive x ∧ (f.clone cl).parentId x = f.parentId x ∧
    (f.clone cl).nextSiblingId x = f.nextSiblingId x ∧ (f.clone cl).prevSiblingId x = f.prevSiblingId x ∧
    (f.clone cl).firstChildId x = f.firstChildId x ∧ (f.clone cl).lastChildId x = f.lastChildId x ∧
    (f.clone cl).depthFirstTraverse x = f.depthFirstTraverse x ∧
    ∀ st, (f.clone cl).dftNext st = f.dftNext st ∧ (f.clone cl).dftNextBack st = f.dftNextBack st := by
  obtain ⟨h1, _, h2, h3, h4, h5, h6, h7, h8, _⟩ := C49_reading cl f x
  exact ⟨h1, h2, h3, h4, h5, h6, h7, h8⟩

/-- **C51**, histories: when `T::clone` gives an equal value, the clone is indistinguishable from the original, now
and after any further calls, done to it instead of the original. -/
theorem C51_clone_equal (f : Forest T) (ops : List (Op T)) :
    f.clone (fun d => d) = f ∧ Op.run cap (f.clone (fun d => d)) ops = Op.run cap f ops := by
  have : f.clone (fun d => d) = f := by
    simp only [Forest.clone]
    have h : (fun o : Option T => Option.map (fun d => d) o) = id := by funext o; cases o <;> rfl
    rw [show (Option.map fun d : T => d) = id from h, List.map_id]
  exact ⟨this, by rw [this]⟩

/-- C51, histories: further calls on the clone, with cloned data as arguments, go as those on the original. -/
theorem C51_clone_histories (cl : T → T) {ops ops' : List (Op T)} (h : SameHistory cl ops ops') (f : Forest T) :
    Op.run cap (f.clone cl) ops' = (Op.run cap f ops).clone cl := C49_histories cl h f

example : (Sample.built.clone (· + 100)).getData 4 = some 114 ∧
    (Sample.built.clone (· + 100)).parentId 4 = .ok (some 2) := by
  obtain ⟨_, h1, h2⟩ := C51_clone Sample.models (· + 100)
  exact ⟨by rw [h2]; decide, h1.parent 4 rfl⟩

/-! ### `Forest::remove` when dropping data panics -/

/-- `remove` is this function for data whose `Drop` does not panic. -/
theorem remove_eq_removeDrop (x : Nat) : (Forest.remove x : M (Forest T) Unit) = Forest.removeDrop (fun _ => false) x := by
  rfl

theorem feed_drop (bad : T → Bool) : ∀ (ds : List T) (k : Nat) (d : T), ds[k]? = some d → bad d = true →
    (∀ e ∈ ds.take k, bad e = false) →
    feed (fun (s : Unit) d => if bad d then .error s else .ok s) () ds = ((), some k) := by
  intro ds
  induction ds with
  | nil => intro k d h; cases k <;> cases h
  | cons a ds ih =>
    intro k d h hb hok
    cases k with
    | zero =>
      simp only [List.getElem?_cons_zero, Option.some.injEq] at h
      subst h
      simp [feed, hb]
    | succ k =>
      have ha : bad a = false := hok a (by simp)
      have := ih k d (by simpa using h) hb (fun e he => hok e (by simp [he]))
      simp [feed, ha, this]

/-- **C40**, `remove`.  It is `remove_hooked` with the hook `drop`: if the `Drop` of some datum other than the last
one dropped panics (`ds` are the data in postorder, `k` the first one whose `Drop` panics), live nodes with links to
dead nodes are left over, and the forest is not consistent any more. -/
theorem C40_remove_drop_panic_corrupts (hm : Models f s) {t : Tree Nat} (ht : Tree.IsTree s.kids t)
    (hx : s.alive t.root = true) (bad : T → Bool) {ds : List T} (hds : t.postorder.map f.getData = ds.map some)
    {k : Nat} {d : T} (hk : ds[k]? = some d) (hbad : bad d = true) (hok : ∀ e ∈ ds.take k, bad e = false)
    (hlast : k + 1 < t.count) :
    ∃ f', Forest.removeDrop bad t.root f = .fail (.panic "hook panicked") f' ∧ LinksToDead f' ∧ ¬ Consistent f' := by
  obtain ⟨f', h1, h2, h3⟩ := C40_remove_hooked_panic_corrupts hm ht hx
    (fun (s : Unit) d => if bad d then .error s else .ok s) () () k hds (feed_drop bad ds k d hk hbad hok) hlast
  exact ⟨f', by unfold Forest.removeDrop; rw [h1], h2, h3⟩

/-- The sample: dropping 14 panics. -/
example : ∃ f', Forest.removeDrop (fun d => d == 14) 0 Sample.built = .fail (.panic "hook panicked") f' ∧
    LinksToDead f' := by
  obtain ⟨f', h1, h2, _⟩ := C40_remove_drop_panic_corrupts Sample.models Sample.isTree rfl (fun d => d == 14)
    (ds := [11, 14, 15, 12, 13, 10]) (by decide) (k := 1) (d := 14) rfl rfl (by decide) (by decide)
  exact ⟨f', h1, h2⟩

/-! ### The hypotheses can be met

Each example applies the theorem named in its comment to a concrete forest. -/

section
/-- `C50_debug_print`: node 2. -/
example := C50_debug_print (f := Sample.built) (fun (out : Text) p => .ok (out ++ p)) (fun _ => .ret true) 2 (by decide) []

/-- `C51_clone_histories`: a clone function that changes the data. -/
example := C51_clone_histories (cap := 100) (fun n : Nat => n + 100)
  (.cons (.createRoot 5) (.cons (.createInsert 7 (.lastChildOf 0)) (.cons (.detach 1) .nil))) Sample.built

/-- `C51_clone_panics`: a clone function that panics at the datum 14. -/
example := C51_clone_panics Sample.models (fun d => if d = 14 then none else some d)

end

end Treena
