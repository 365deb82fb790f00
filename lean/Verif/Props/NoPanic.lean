import Verif.Props.Consistency
import Verif.Props.Create
import Verif.Props.Detach
import Verif.Props.Clone
import Verif.Props.Builders
import Verif.Spec.WellUsed
import Verif.Props.SampleRun
/-!
# No panic, no endless loop on well-formed use (C38)
-/
set_option autoImplicit false

namespace Treena
variable {T S : Type} {f : Forest T} {s : Shape} {cap : Nat}

theorem insert_returns (hm : Models f s) {x : Nat} {d : InsertAs} (h : insertPre s x d)
    (hl : ¬ ∃ P, d = .lastChildOf P ∧ s.kids P = [x]) : ∃ r f', Forest.insert x d f = .ok r f' ∧
      (insertPossible s x d → r = .ok ()) := by
  obtain ⟨hx, ha, hp⟩ := h
  by_cases hat : s.At x d.place
  · rcases C09_insert_in_place_result hm hat with ⟨h, _⟩ | ⟨_, f', h⟩
    · exact absurd h hl
    · exact ⟨_, f', h, fun _ => rfl⟩
  · obtain ⟨P, hP⟩ := Option.ne_none_iff_exists'.1 hp
    by_cases hu : d = .previousSiblingOf x ∨ d = .nextSiblingOf x
    · refine ⟨_, _, forest_insert_unorderable f hu, fun h => ?_⟩
      rcases hu with e | e
      · exact absurd e h.1
      · exact absurd e h.2.1
    · by_cases hc : AncOrSelf s.parent x P
      · exact ⟨_, _, forest_insert_loop hm hx ha (not_or.1 hu) hP hc, fun h => absurd hc (h.2.2 P hP)⟩
      · obtain ⟨f', h, _⟩ := forest_insert_models hm hx ha (place_ne (not_or.1 hu)) hP hc hat
        exact ⟨_, f', h, fun _ => rfl⟩

theorem clone_returns {cl : T → Option T} {hook : Forest.MapHook S} {dat : Nat → Option T} {t : Tree Nat} {σ : S}
    {run : Res (Forest T × S) Nat} (h : CloneOutcome f s cap cl hook dat t σ run)
    (hn : NeverPanics (pairHook hook)) (hcl : ∀ d, cl d ≠ none)
    (hdat : ∀ y ∈ t.preorder, ∃ d, dat y = some d) (hroom : s.size + t.count ≤ cap) : ∃ n p, run = .ok n p := by
  obtain ⟨g, σ', s', ⟨h1, h2, _, h3, h4⟩ | ⟨e, m, h1, h2, h3, h4, _, h5⟩⟩ := h
  · exact ⟨_, _, h4⟩
  · cases h5 with
    | hook k hf _ _ _ =>
      obtain ⟨σ2, h6⟩ := feed_never hn (t.preorder.zip (List.range' s.size t.count)) σ
      rw [h6] at hf; cases hf
    | clone _ _ _ _ hq =>
      obtain ⟨q, hq, hf⟩ := hq
      obtain ⟨d, hd⟩ := hdat q.1 (List.of_mem_zip (List.mem_of_getElem? hq)).1
      simp only [clones, hd, Option.bind_some, Option.isSome_eq_false_iff, Option.isNone_iff_eq_none] at hf
      exact absurd hf (hcl d)
    | full hc _ _ =>
      have : (t.preorder.zip (List.range' s.size t.count)).length = t.count := by
        simp [Tree.length_preorder]
      omega

/-- **C38** (partial), calls that change the forest.  On a consistent forest, every call that meets the documented
preconditions returns: no panic, in particular no failure of an internal consistency check, and no endless loop.

Missing for the full claim: `insert`, `try_adopt` and `adopt` asked to make an only child the last child of its own
parent, which do panic (`C38_false`). -/
theorem C38_calls_return_partial (hm : Models f s) (op : Op T) (hw : op.WellUsed cap s) (hl : ¬ op.LastOfOnly s) :
    op.returns cap f = true := by
  cases op with
  | createRoot d =>
    obtain ⟨f', s', h, _⟩ := (C02_create_root hm cap d).1 hw
    simp [Op.returns, h, Op.returns.plain]
  | createInsert d dest =>
    obtain ⟨h1, h2, h3⟩ := hw
    obtain ⟨P, hP⟩ := Option.ne_none_iff_exists'.1 h2
    obtain ⟨f', s', h, _⟩ := C12_create_insert hm h3 d h1 hP
    simp [Op.returns, h, Op.returns.plain]
  | setData id v =>
    obtain ⟨f', h, _⟩ := C34_data_mut f id v
    simp [Op.returns, h, Op.returns.plain]
  | insert x dest =>
    obtain ⟨r, f', h, _⟩ := insert_returns hm hw hl
    simp [Op.returns, h, Op.returns.plain]
  | detach x =>
    obtain ⟨f', s', h, _⟩ := C13_detach hm hw
    simp [Op.returns, h, Op.returns.plain]
  | detachSingle x =>
    have : ∃ r f', Forest.detachSingle x f = .ok r f' := by
      cases hp : s.parent x with
      | some p =>
        obtain ⟨f', _, _, _, h, _⟩ := C14_detach_single_child hm hp
        exact ⟨_, _, h⟩
      | none =>
        obtain ⟨h1, h2, h3⟩ := C14_detach_single_root hm hw hp
        match hk : s.kids x with
        | [] => exact ⟨_, _, h1 hk⟩
        | [c] => obtain ⟨f', _, h, _⟩ := h2 c hk; exact ⟨_, _, h⟩
        | a :: b :: l => exact ⟨_, _, h3 (by rw [hk]; simp)⟩
    obtain ⟨r, f', h⟩ := this
    simp [Op.returns, h, Op.returns.plain]
  | remove x =>
    obtain ⟨⟨f', s', h, _⟩, _⟩ := C15_remove hm hw
    simp [Op.returns, h, Op.returns.plain]
  | removeHooked S hook c x =>
    obtain ⟨⟨f', s', σ', h, _⟩, _⟩ := (C15_remove hm hw.1).2 S hook c hw.2
    simp [Op.returns, h, Op.returns.plain]
  | removeHookedPanicSafe S hook c x =>
    obtain ⟨_, ⟨f', s', σ', h, _⟩⟩ := (C15_remove hm hw.1).2 S hook c hw.2
    simp [Op.returns, h, Op.returns.plain]
  | cloneLocal S cl hook c x =>
    obtain ⟨hx, hn, hcl, t, ht, rfl, hroom⟩ := hw
    obtain ⟨n, p, h⟩ := clone_returns ((C30_any_callback hm hm (cap := cap) cl hook c).1 t ht hx) hn hcl
      (fun y hy => data_some hm (Tree.mem_alive hm.valid ht hx hy)) hroom
    simp [Op.returns, h, Op.returns.plain]
  | cloneForeign S cl hook c fsrc x =>
    obtain ⟨ss, hms, hx, hn, hcl, t, ht, rfl, hroom⟩ := hw
    obtain ⟨n, p, h⟩ := clone_returns ((C30_any_callback hm hms (cap := cap) cl hook c).2 t ht hx) hn hcl
      (fun y hy => data_some hms (Tree.mem_alive hms.valid ht hx hy)) hroom
    simp [Op.returns, h, Op.returns.plain]
  | nodeCreate self d dest =>
    obtain ⟨h1, h2, h3⟩ := hw
    obtain ⟨P, hP⟩ := Option.ne_none_iff_exists'.1 h2
    obtain ⟨f', s', h, _⟩ := C12_create_insert hm h3 d h1 hP
    simp only [Op.returns, (C35_node_mut cap self 0 d dest f).1, h, Op.returns.plain]
  | tryAdopt self x dest =>
    obtain ⟨r, f', h, _⟩ := insert_returns hm (d := adoptPlace self dest) hw (by
      rintro ⟨P, e, hk⟩
      cases dest <;> cases e
      exact hl ⟨rfl, hk⟩)
    have he : dest.insertWithAnchor self = adoptPlace self dest := by cases dest <;> rfl
    have h' : NodeMut.tryAdopt self x dest f = .ok r f' := by
      unfold NodeMut.tryAdopt; rw [he]; exact h
    simp only [Op.returns, h', Op.returns.plain]
  | adopt self x dest =>
    obtain ⟨r, f', h, hok⟩ := insert_returns hm (d := adoptPlace self dest) hw.1 (by
      rintro ⟨P, e, hk⟩
      cases dest <;> cases e
      exact hl ⟨rfl, hk⟩)
    rw [hok hw.2] at h
    have he : dest.insertWithAnchor self = adoptPlace self dest := by cases dest <;> rfl
    have h' : NodeMut.tryAdopt self x dest f = .ok (.ok ()) f' := by
      unfold NodeMut.tryAdopt; rw [he]; exact h
    simp only [Op.returns, (C35_adopt self x dest f).1 f' h', Op.returns.plain]
  | nest d calls =>
    obtain ⟨g, s', h, _⟩ := C31_nest_builder hm cap d calls hw.1 hw.2
    simp [Op.returns, h, Op.returns.plain]
  | chain d calls =>
    obtain ⟨hcap, hs⟩ := hw
    obtain ⟨b, h1, _, _, h2⟩ := C32_chain_builder hm cap hcap d calls
    cases hc : (Cursor.mk ⟨s.size, d, []⟩ []).steps cap calls with
    | none => rw [hc] at hs; cases hs
    | some c =>
      rw [hc] at h2
      obtain ⟨b', s', h3, _⟩ := h2
      simp [Op.returns, chainBuild, h1, h3, Op.returns.plain]

/-- **C38**, reading: on a consistent forest, for a live node, all accessors return, all iterators can be made, and
no sequence of `next` / `next_back` / `peek` calls ever panics or runs for ever. -/
theorem C38_reading_returns (um : Nat) (hm : Models f s) {x : Nat} (hx : s.alive x = true) :
    (∃ a, f.parentId x = .ok a) ∧ (∃ a, f.nextSiblingId x = .ok a) ∧ (∃ a, f.prevSiblingId x = .ok a) ∧
    (∃ a, f.firstChildId x = .ok a) ∧ (∃ a, f.lastChildId x = .ok a) ∧ (∃ a, f.firstLastChildId x = .ok a) ∧
    (∃ d, f.nodeData x = .ok d) ∧
    (∃ st, f.depthFirstTraverse x = .ok st ∧ ∀ ds, ∃ l, drive f.dftNext f.dftNextBack st ds = .ok l) ∧
    (∀ md, (∀ m, md = some m → m ≤ um) → ∃ st, Forest.shallowDepthFirstTraverse um f x md = .ok st ∧
      ∀ ds, ∃ l, drive f.shallowNext f.shallowNextBack st ds = .ok l) ∧
    (∃ st, Forest.breadthFirstTraverse um f x = .ok st ∧ ∀ n, ∃ l, pull (Forest.bftNext um f) n st = .ok l) ∧
    (∃ st, f.allocatingBreadthFirstTraverse x = .ok st ∧ ∀ n, ∃ l, pull f.abftNext n st = .ok l) ∧
    (∃ st, f.ancestors x = .ok st ∧ ∀ n, ∃ l, pull f.ancestorsNext n st = .ok l) ∧
    (∃ st, f.ancestorsOrSelf x = .ok st ∧ ∀ n, ∃ l, pull f.ancestorsNext n st = .ok l) ∧
    (∀ start ∈ [f.children x, f.followingSiblings x, f.followingSiblingsOrSelf x, f.precedingSiblings x,
        f.precedingSiblingsOrSelf x],
      ∃ st, start = .ok st ∧ ∀ ds, ∃ l, drive f.siblingsNext f.siblingsNextBack st ds = .ok l) := by
  have hD := hm.describes
  obtain ⟨t, ht, hr⟩ := Tree.exists_tree hm.valid hx
  refine ⟨⟨_, hD.parent x hx⟩, ⟨_, hD.next x hx⟩, ⟨_, hD.prev x hx⟩, ⟨_, hD.first x hx⟩, ⟨_, hD.last x hx⟩,
    ⟨_, hD.firstLast x hx⟩, ?_, ?_, ?_, ?_, ?_, ?_, ?_, ?_⟩
  · obtain ⟨d, h, _⟩ := hD.nodeData x hx; exact ⟨d, h⟩
  · obtain ⟨st, h1, h2⟩ := C20_dft_deque hm hx ht hr
    exact ⟨st, h1, fun ds => ⟨_, h2 ds⟩⟩
  · intro md hmd
    obtain ⟨h1, h2, _⟩ := C21_shallow um hm hx ht hr
    have : ∃ L, IteratesOver f.shallowNext f.shallowNextBack (Forest.shallowDepthFirstTraverse um f x md) L := by
      cases md with
      | none => exact ⟨_, (h2 none (.inl rfl)).1⟩
      | some m =>
        rcases Nat.lt_or_eq_of_le (hmd m rfl) with h | h
        · exact ⟨_, (h1 m h).1⟩
        · exact ⟨_, (h2 (some m) (.inr (by rw [h]))).1⟩
    obtain ⟨L, st, h3, _, h4⟩ := this
    exact ⟨st, h3, fun ds => ⟨_, h4 ds⟩⟩
  · obtain ⟨st, h1, h2⟩ := C22_breadth_first um hm hx ht hr
    exact ⟨st, h1, fun n => ⟨_, h2 n⟩⟩
  · obtain ⟨st, h1, h2, _⟩ := C23_allocating hm hx ht hr
    exact ⟨st, h1, fun n => ⟨_, h2 n⟩⟩
  · obtain ⟨L, _, _, st, h1, h2⟩ := C24_ancestors hm hx
    exact ⟨st, h1, fun n => ⟨_, h2 n⟩⟩
  · obtain ⟨L, _, ⟨st, h1, h2⟩, _⟩ := C24_ancestors hm hx
    exact ⟨st, h1, fun n => ⟨_, h2 n⟩⟩
  · obtain ⟨h0, A, B, _, _, h1, h2, h3, h4⟩ := C25_siblings hm hx
    have key : ∀ {start : R Siblings.St} {L : List Nat}, IteratesOver f.siblingsNext f.siblingsNextBack start L →
        ∃ st, start = .ok st ∧ ∀ ds, ∃ l, drive f.siblingsNext f.siblingsNextBack st ds = .ok l := by
      rintro start L ⟨st, h, _, h'⟩
      exact ⟨st, h, fun ds => ⟨_, h' ds⟩⟩
    intro start hs
    simp only [List.mem_cons, List.not_mem_nil, or_false] at hs
    rcases hs with rfl | rfl | rfl | rfl | rfl
    · exact key h0
    · exact key h1
    · exact key h2
    · exact key h3
    · exact key h4

/-- **C38 is false of the code**: making an only child the last child of its own parent meets the documented
preconditions, but panics. -/
theorem C38_false (hm : Models f s) {x P : Nat} (hk : s.kids P = [x]) :
    (Op.insert x (.lastChildOf P) : Op T).WellUsed cap s ∧ insertPossible s x (.lastChildOf P) ∧
    (Op.insert x (.lastChildOf P) : Op T).returns cap f = false := by
  have hp : s.parent x = some P := hm.valid.kid_parent (by rw [hk]; simp)
  obtain ⟨hx, hP⟩ := hm.valid.parent_alive x P hp
  refine ⟨⟨hx, hP, by simp [Shape.placeParent, InsertAs.place]⟩, ⟨by simp, by simp, ?_⟩, ?_⟩
  · intro Q hQ
    cases hQ
    exact (hm.valid.rooted x).acyclic hp
  · obtain ⟨msg, f', h, _⟩ := (C08_insert_in_place_details hm (P := P) (x := x) (y := 0) (p := 0) (A := []) (B := [])).2.2.1 hk
    simp [Op.returns, h, Op.returns.plain]

/-! ### Examples -/

example : (Op.insert 4 (.nextSiblingOf 1) : Op Nat).returns 100 Sample.built = true :=
  C38_calls_return_partial Sample.models _ ⟨rfl, rfl, by simp [Shape.placeParent, InsertAs.place, Sample.shape, Sample.parent]⟩
    (by rintro ⟨P, h, _⟩; cases h)

example : (Op.cloneLocal Unit (fun d => some (d + 1)) (fun s _ _ => .ok s) () 2 : Op Nat).returns 100 Sample.built = true :=
  C38_calls_return_partial Sample.models _ ⟨rfl, fun σ _ => ⟨σ, rfl⟩, by simp, Sample.tree2, Sample.isTree2, rfl, by decide⟩ id

example : (Op.chain 0 docChain : Op Nat).returns 100 Sample.built = true :=
  C38_calls_return_partial Sample.models _ ⟨by decide, by decide⟩ id

/-! ### The hypotheses can be met

Each example applies the theorem named in its comment to a concrete forest. -/

section
/-- `C38_false`: a root with one child. -/
example := C38_false (cap := 100) (Sample.addChild_state (Sample.createRoot_state (T := Nat) Sample.new_models (cap := 100) (by decide) 1) (cap := 100) (by decide) 2 (p := 0) rfl) (x := 1) (P := 0) rfl

/-- `C38_reading_returns`: node 2. -/
example := C38_reading_returns 1000 Sample.models (x := 2) rfl

end

end Treena
