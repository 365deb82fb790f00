import Verif.Proof.CopyAny
import Verif.Props.Careless
import Verif.Props.Hang
/-!
# C90: a copy is sound whatever the original is
-/
set_option autoImplicit false

namespace Treena
variable {T S : Type} {cap : Nat}

theorem Reachable.bounded {f : Forest T} (h : Reachable cap f) : Bounded f := by
  obtain ⟨ops, rfl⟩ := h
  exact ((Contained.start new_consistent (Nat.zero_le _)).run ops).bounded

/-- **C90**: after any history whatsoever, `clone_local_tree_with_id_mapping` adds one well-formed tree, made of the brackets a
depth-first traversal of the original gives, with clones of the data, and leaves the rest of the forest alone.  It panics for the
reasons stated in `CopiesAny` only. -/
theorem C90_local {f : Forest T} (h : Reachable cap f) (cl : T → Option T) (hook : Forest.MapHook S) (c : S) (x : Nat) :
    CopiesAny cap false cl hook f x f c (Forest.cloneLocalTreeWithIdMapping cap cl hook x (f, c)) :=
  CopyResult.any (copy_local h.bounded (Reachable.coherent h) (gone_same (Reachable.coherent h)) (gone_models (Reachable.coherent h)) hook c x)

/-- **C90**: so does `clone_foreign_tree_with_id_mapping`; the forests have had any histories. -/
theorem C90_foreign {cap' : Nat} {f fsrc : Forest T} (h : Reachable cap f) (h' : Reachable cap' fsrc) (cl : T → Option T) (hook : Forest.MapHook S) (c : S) (x : Nat) :
    CopiesAny cap true cl hook fsrc x f c (Forest.cloneForeignTreeWithIdMapping cap cl hook fsrc x (f, c)) :=
  CopyResult.any (copy_foreign (Reachable.coherent h') (gone_same (Reachable.coherent h)) (gone_models (Reachable.coherent h)) hook c x)

/-- A copy returns or panics. -/
theorem CopiesAny.ends {b : Bool} {cl : T → Option T} {hook : Forest.MapHook S} {src f : Forest T} {x : Nat} {c : S} {r : Res (Forest T × S) Nat}
    (h : CopiesAny cap b cl hook src x f c r) : ∀ p, r ≠ .fail .diverge p := by
  rintro p rfl
  rcases h with ⟨⟨_, h⟩, _⟩ | ⟨_, _, _, _, _, _, _, _, _, _, _, ⟨h, _⟩ | ⟨⟨_, h⟩, _⟩⟩ <;> cases h

/-- **C89**, copies: after any history whatsoever, copying a tree never hangs: neither within the forest (with or without a callback) nor
from another forest with any history. -/
theorem C89_copy {f : Forest T} (h : Reachable cap f) {um : Nat} (x : Nat) (cl : T → Option T) :
    ((Req.dup x cl).exec cap um f).2 ≠ .hung ∧ (∀ limit, ((Req.copy x cl limit).exec cap um f).2 ≠ .hung) ∧
    (∀ {cap' : Nat} {fsrc : Forest T} (_ : Reachable cap' fsrc) (hook : Forest.MapHook S) (c : S),
      ∀ p, Forest.cloneForeignTreeWithIdMapping cap cl hook fsrc x (f, c) ≠ .fail .diverge p) := by
  refine ⟨?_, fun limit => ?_, fun h' hook c => (C90_foreign h h' cl hook c x).ends⟩
  · have key := (C90_local h cl (S := Unit) (fun s _ _ => .ok s) () x).ends
    simp only [Req.exec, Forest.cloneLocalTree, Forest.noHook]
    cases e : Forest.cloneLocalTreeWithIdMapping cap cl (S := Unit) (fun s _ _ => .ok s) x (f, ()) with
    | ok a p => nofun
    | fail e' p =>
      cases e' with
      | panic m => nofun
      | diverge => exact absurd e (key p)
  · have key := (C90_local h cl (fun l a b => Req.record limit l (a, b)) [] x).ends
    simp only [Req.exec]
    cases e : Forest.cloneLocalTreeWithIdMapping cap cl (fun l a b => Req.record limit l (a, b)) x (f, []) with
    | ok a p => nofun
    | fail e' p =>
      cases e' with
      | panic m => nofun
      | diverge => exact absurd e (key p)

/-! ### When copying returns `Ok` -/

theorem Yields.compare {ι σ : Type} {next : σ → R (Option ι × σ)} : ∀ {E1 E2 : List ι} {st st1 st2 : σ}, Yields next st E1 st1 → Yields next st E2 st2 →
    (∃ K, E2 = E1 ++ K ∧ Yields next st1 K st2) ∨ ∃ K, E1 = E2 ++ K ∧ Yields next st2 K st1
  | [], E2, _, _, _, h1, h2 => by cases h1; exact .inl ⟨E2, rfl, h2⟩
  | e :: E1, [], _, _, _, h1, h2 => by cases h2; exact .inr ⟨e :: E1, rfl, h1⟩
  | e :: E1, e' :: E2, st, _, _, ⟨sa, h1, h1'⟩, ⟨sb, h2, h2'⟩ => by
    rw [h1] at h2
    cases h2
    rcases Yields.compare h1' h2' with ⟨K, rfl, h⟩ | ⟨K, rfl, h⟩
    · exact .inl ⟨K, rfl, h⟩
    · exact .inr ⟨K, rfl, h⟩

/-- The brackets `E` are those of one tree: they are closed at the end and not before. -/
def OneTree (E : List (Ev Nat)) : Prop := (brackets E).1 = [] ∧ ∀ E' K, E = E' ++ K → E' ≠ [] → K ≠ [] → (brackets E').1 ≠ []

theorem feed_prefix {ι : Type} {hook : S → ι → Except S S} {c : S} {l l' : List ι} (h : (feed hook c (l ++ l')).2 = none) : (feed hook c l).2 = none := by
  rw [feed_append] at h
  cases e : feed hook c l with
  | mk a b =>
    cases b with
    | none => rfl
    | some i => rw [e] at h; cases h

theorem openedBy_append (E K : List (Ev Nat)) : openedBy (E ++ K) = openedBy E ++ openedBy K := by
  unfold openedBy; rw [List.filterMap_append]

theorem brackets_after_closed (K : List (Ev Nat)) : ∀ {E : List (Ev Nat)}, (brackets E).1 = [] → openedBy K = [] → (brackets (E ++ K)).1 = [] := by
  induction K with
  | nil => intro E h _; rwa [List.append_nil]
  | cons e K ih =>
    intro E h hk
    have e1 : E ++ e :: K = (E ++ [e]) ++ K := by simp
    rw [e1]
    cases e with
    | opn x => unfold openedBy at hk; simp at hk
    | cls x =>
      refine ih ?_ ?_
      · rw [brackets_snoc]; simp [bracketStep, h]
      · unfold openedBy at hk ⊢; simpa using hk

theorem brackets_count (E : List (Ev Nat)) : (brackets E).2.length = (openedBy E).length := by
  induction E using List.reverseRecOn with
  | nil => rfl
  | append_singleton E e ih =>
    cases e with
    | opn x => rw [brackets_snoc, openedBy_snoc_opn]; simp [bracketStep, ih]
    | cls x => rw [brackets_snoc, openedBy_snoc_cls]; simp [bracketStep, ih]

theorem brackets_grow (K : List (Ev Nat)) : ∀ (E : List (Ev Nat)), (brackets E).2 <+: (brackets (E ++ K)).2 := by
  induction K with
  | nil => intro E; rw [List.append_nil]
  | cons e K ih =>
    intro E
    have e1 : E ++ e :: K = (E ++ [e]) ++ K := by simp
    rw [e1]
    refine List.IsPrefix.trans ?_ (ih _)
    rw [brackets_snoc]
    cases e with
    | opn x => exact List.prefix_append _ _
    | cls x => exact List.prefix_rfl

/-- An opening after all brackets have been closed makes a second root. -/
theorem second_root (K : List (Ev Nat)) : ∀ {E : List (Ev Nat)}, (brackets E).1 = [] → openedBy K ≠ [] → (brackets (E ++ K)).2[(openedBy E).length]? = some none := by
  induction K with
  | nil => intro E _ h; exact absurd rfl h
  | cons e K ih =>
    intro E h hk
    have e1 : E ++ e :: K = (E ++ [e]) ++ K := by simp
    rw [e1]
    cases e with
    | opn x =>
      obtain ⟨R, hR⟩ := brackets_grow K (E ++ [.opn x])
      rw [← hR, brackets_snoc]
      simp only [bracketStep, h, List.head?_nil]
      rw [List.getElem?_append_left (by rw [List.length_append, brackets_count]; simp), List.getElem?_append_right (by rw [brackets_count]),
        brackets_count, Nat.sub_self]
      rfl
    | cls x =>
      have := ih (E := E ++ [.cls x]) (by rw [brackets_snoc]; simp [bracketStep, h]) (by unfold openedBy at hk ⊢; simpa using hk)
      rwa [openedBy_snoc_cls] at this

/-- **C90**, success: `CopiesAny` means that the call returns `Ok` whenever the depth-first traversal at `x` gives the brackets of one tree (and, if `strict`,
ends then), all data can be cloned, there are enough IDs, and the callback does not panic. -/
theorem C90_ok {strict : Bool} {f src : Forest T} {cl : T → Option T} {hook : Forest.MapHook S} {c : S} {x : Nat} {r : Res (Forest T × S) Nat}
    (h : CopiesAny cap strict cl hook src x f c r) {E : List (Ev Nat)} {st : Dft.St} (hy : Yields (Dft.next src.hier) (some (.opn x, .cls x)) E st)
    (hne : E ≠ []) (hone : OneTree E) (hend : strict = true → ∃ st', Dft.next src.hier st = .ok (none, st'))
    (hdata : ∀ y ∈ openedBy E, ∃ d, src.getData y = some d ∧ cl d ≠ none) (hcap : f.issued + (openedBy E).length ≤ cap)
    (hhook : (feed (pairHook hook) c ((openedBy E).zip (List.range' f.issued (openedBy E).length))).2 = none) :
    ∃ f' σ, r = .ok f.issued (f', σ) ∧ f'.issued = f.issued + (openedBy E).length := by
  obtain ⟨e0, E0, rfl⟩ : ∃ e E', E = e :: E' := by cases E with | nil => exact absurd rfl hne | cons e E' => exact ⟨e, E', rfl⟩
  have hfirst : e0 = .opn x := by
    obtain ⟨st1, h1, _⟩ := hy
    unfold Dft.next deNext at h1
    simp only [reduceCtorEq, if_false] at h1
    split at h1 <;> cases h1 <;> rfl
  subst hfirst
  have hx : x ∈ openedBy (.opn x :: E0) := by unfold openedBy; simp
  rcases h with ⟨_, h1⟩ | ⟨f', E1, st1, ds, s, σ, k1, k2, k3, k4, k5, k6⟩
  · rcases h1 with h1 | h1
    · have : 0 < (openedBy (.opn x :: E0)).length := List.length_pos_of_mem hx
      omega
    · obtain ⟨d, hd, hcl⟩ := hdata x hx
      exact absurd (h1 d hd) hcl
  · have hiss : f'.issued = f.issued + (openedBy E1).length := by rw [k3.issued, k3.count]
    have hroots : ∀ k, 0 < k → k < (openedBy E1).length → (brackets E1).2[k]? ≠ some none := fun k hk hk' e => by
      have h1 := k3.parent k (by rw [k3.count]; exact hk')
      rw [e] at h1
      have h2 := (k3.root (f.issued + k) ((k3.alive _).2 ⟨by omega, by omega⟩)).1 h1
      omega
    rcases k1.compare hy with ⟨K, e, hK⟩ | ⟨K, rfl, hK⟩
    · -- the copy has not gone further than `E`
      have hE1 : E1 ≠ [] := fun e => by rw [e] at k2; cases k2
      have hop : openedBy (.opn x :: E0) = openedBy E1 ++ openedBy K := by rw [e, openedBy_append]
      by_cases hKe : K = []
      · subst hKe
        rw [List.append_nil] at e
        cases hK
        rw [← e] at k6 hiss
        rcases k6 with ⟨h1, _⟩ | ⟨_, h1 | h1 | h1⟩
        · exact ⟨f', σ, h1, hiss⟩
        · exact absurd hhook h1
        · exact absurd hone.1 h1.1
        · obtain ⟨st', h2⟩ := hend h1.1
          exact absurd h2 (h1.2.2 st')
      · have hopen := hone.2 E1 K e hE1 hKe
        obtain ⟨e1, K', rfl⟩ : ∃ e K', K = e :: K' := by cases K with | nil => exact absurd rfl hKe | cons a b => exact ⟨a, b, rfl⟩
        obtain ⟨st', hn, _⟩ := hK
        rcases k6 with ⟨_, h1, _⟩ | ⟨_, h1 | h1 | h1⟩
        · exact absurd h1 hopen
        · refine absurd ?_ h1
          refine feed_prefix (l' := (openedBy (e1 :: K')).zip (List.range' (f.issued + (openedBy E1).length) (openedBy (e1 :: K')).length)) ?_
          rw [← List.zip_append (by simp), ← hop]
          have : List.range' f.issued (openedBy E1).length ++ List.range' (f.issued + (openedBy E1).length) (openedBy (e1 :: K')).length =
              List.range' f.issued (openedBy (.opn x :: E0)).length := by
            rw [hop, List.length_append, List.range'_append_1]
          rw [this]; exact hhook
        · rcases h1.2 with ⟨_, h2⟩ | ⟨_, h2⟩ | ⟨y, _, h2, h3⟩
          · rw [hn] at h2; cases h2
          · rw [hn] at h2; cases h2
          · rw [hn] at h2
            cases h2
            have hyE : openedBy (.opn y :: K') = y :: openedBy K' := by unfold openedBy; simp
            rw [hyE] at hop
            rcases h3 with h3 | h3
            · rw [hop] at hcap
              simp only [List.length_append, List.length_cons] at hcap
              omega
            · obtain ⟨d, hd, hcl⟩ := hdata y (by rw [hop]; simp)
              exact absurd (h3 d hd) hcl
        · exact absurd h1.2.1 hopen
    · -- it has not gone further either
      have hnoK : openedBy K = [] := by
        apply Classical.byContradiction
        intro hk
        refine hroots _ (List.length_pos_of_mem hx) ?_ (second_root K hone.1 hk)
        rw [openedBy_append, List.length_append]
        have := List.length_pos_iff.2 hk
        omega
      have hop : openedBy (.opn x :: E0 ++ K) = openedBy (.opn x :: E0) := by rw [openedBy_append, hnoK, List.append_nil]
      rw [hop] at k6 hiss
      rcases k6 with ⟨h1, _⟩ | ⟨_, h1 | h1 | h1⟩
      · exact ⟨f', σ, h1, hiss⟩
      · exact absurd hhook h1
      · exact absurd (brackets_after_closed K hone.1 hnoK) h1.1
      · obtain ⟨st', h2⟩ := hend h1.1
        cases K with
        | nil => cases hK; exact absurd h2 (h1.2.2 st')
        | cons e K' =>
          obtain ⟨_, h3, _⟩ := hK
          rw [h2] at h3; cases h3

/-! ### The hypotheses can be met -/

section

/-- A callback that writes down what it is told. -/
def noteAll : Forest.MapHook (List (Nat × Nat)) := fun l a b => .ok (l ++ [(a, b)])

/-- `C90_local`: after a history that has destroyed the tree of node 2. -/
example := C90_local (cap := 100) (f := Op.run 100 Forest.new besideHistory) ⟨_, rfl⟩ some noteAll [] 2

/-- `C90_foreign`: into a forest with a destroyed tree, from another such forest. -/
example := C90_foreign (cap := 100) (cap' := 100) (f := Op.run 100 Forest.new carousel) (fsrc := Op.run 100 Forest.new besideHistory) ⟨_, rfl⟩ ⟨_, rfl⟩ some noteAll [] 2

/-- `C89_copy`: in a forest in which siblings go round. -/
example := C89_copy (S := Unit) (cap := 30) (f := Op.run 30 Forest.new carousel) ⟨_, rfl⟩ (um := 255) 1 some

/-- `C90_ok`: the copy of the destroyed tree is made: the child 4 was lost. -/
example : ∃ f' σ, Forest.cloneLocalTreeWithIdMapping 100 some noteAll 2 (Op.run 100 Forest.new besideHistory, []) = .ok 6 (f', σ) ∧ f'.issued = 8 := by
  have h := C90_local (cap := 100) (f := Op.run 100 Forest.new besideHistory) ⟨_, rfl⟩ some noteAll [] 2
  have hi : (Op.run 100 (Forest.new : Forest Nat) besideHistory).issued = 6 := by decide
  have hy : Yields (Dft.next (Op.run 100 (Forest.new : Forest Nat) besideHistory).hier) (some (.opn 2, .cls 2)) [.opn 2, .opn 3, .cls 3, .cls 2] none :=
    ⟨some (.opn 3, .cls 2), by decide, some (.cls 3, .cls 2), by decide, some (.cls 2, .cls 2), by decide, none, by decide, rfl⟩
  have := C90_ok h hy (by simp) ⟨by decide, fun E' K e h1 h2 => ?_⟩ nofun (by decide) (by rw [hi]; decide) (by rw [hi]; decide)
  · rw [hi] at this; exact this
  · match E', e, h1 with
    | [a], e, _ => cases e; decide
    | [a, b], e, _ => cases e; decide
    | [a, b, c], e, _ => cases e; decide
    | [a, b, c, d], e, _ => cases e; exact absurd rfl h2
    | a :: b :: c :: d :: _ :: _, e, _ => simp at e

end

end Treena
