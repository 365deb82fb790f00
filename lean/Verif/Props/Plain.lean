import Verif.Proof.PlainStep
import Verif.Props.Sample
import Verif.Props.SampleRun
/-!
# The whole interface against a naive implementation (C65)

`Plain.exec` (in `Spec/Plain.lean`) is a forest as a list of trees without any links.  A client that talks to the
modelled code cannot tell it from that.
-/
set_option autoImplicit false

namespace Treena
variable {T : Type}

theorem plain_new : Plain.Abs (Plain.empty : Plain T) Forest.new Shape.empty := by
  refine ⟨Sample.new_models, rfl, ⟨fun t ht => (by cases ht), fun x => ?_, List.nodup_nil⟩, fun t ht => (by cases ht)⟩
  simp [Plain.empty, Shape.empty]

theorem plain_run (cap um : Nat) (client : List (Ans T) → Req T) : ∀ (n : Nat) {r : Plain T} {f : Forest T} {s : Shape}
    (seen : List (Ans T)), Plain.Abs r f s →
    ∃ rest, transcript cap um client n f seen = Plain.transcript cap um client n r seen ++ rest ∧
      rest.length + (Plain.transcript cap um client n r seen).length = seen.length + n
  | 0, r, f, s, seen, h => ⟨[], by simp [transcript, Plain.transcript], by simp [Plain.transcript]⟩
  | n + 1, r, f, s, seen, h => by
    have hgrow : ∀ (k : Nat) (g : Forest T) (l : List (Ans T)), ∃ rest, transcript cap um client k g l = l ++ rest ∧
        rest.length = k := by
      intro k
      induction k with
      | zero => intro g l; exact ⟨[], by simp [transcript], rfl⟩
      | succ k ih =>
        intro g l
        obtain ⟨rest, h1, h2⟩ := ih ((client l).exec cap um g).1 (l ++ [((client l).exec cap um g).2])
        exact ⟨((client l).exec cap um g).2 :: rest, by simp [transcript, h1], by simp [h2]⟩
    cases he : r.exec cap um (client seen) with
    | none =>
      obtain ⟨rest, h1, h2⟩ := hgrow (n + 1) f seen
      exact ⟨rest, by simp only [Plain.transcript, he, h1], by simp only [Plain.transcript, he, h2]; omega⟩
    | some y =>
      obtain ⟨h1, s', h2⟩ := h.exec cap um (client seen) he
      obtain ⟨rest, h3, h4⟩ := plain_run cap um client n (seen ++ [y.2]) h2
      refine ⟨rest, ?_, ?_⟩
      · simp only [Plain.transcript, he, transcript, h1, h3]
      · simp only [Plain.transcript, he, h4, List.length_append, List.length_singleton]; omega

/-- **C65**.  Take any client of the interface: a program that decides on each call by all the answers it has seen.
Let it start with an empty forest.  The answers it gets from the modelled code are, call by call, those the naive
implementation gives, up to the first call for which nothing is promised; without such a call, all of them. -/
theorem C65_reference (cap um : Nat) (client : List (Ans T) → Req T) (n : Nat) :
    (∃ rest, transcript cap um client n Forest.new [] = Plain.transcript cap um client n Plain.empty [] ++ rest) ∧
    ((Plain.transcript cap um client n Plain.empty []).length = n →
      transcript cap um client n Forest.new [] = Plain.transcript cap um client n Plain.empty []) := by
  obtain ⟨rest, h1, h2⟩ := plain_run cap um client n [] (plain_new (T := T))
  refine ⟨⟨rest, h1⟩, fun h => ?_⟩
  have : rest = [] := List.length_eq_zero_iff.1 (by simp at h2; omega)
  rw [h1, this, List.append_nil]

/-- Every consistent forest is a naive one. -/
theorem plain_exists {f : Forest T} {s : Shape} (hm : Models f s) : ∃ r, Plain.Abs r f s := by
  classical
  have hv := hm.valid
  rcases isEmpty_or_nonempty T with hT | hT
  · have hdead : ∀ x, s.alive x = false := fun x => by
      cases e : s.alive x with
      | false => rfl
      | true => obtain ⟨d, _⟩ := data_some hm e; exact (hT.false d).elim
    refine ⟨⟨s.size, []⟩, hm, rfl, ⟨fun t ht => (by cases ht), fun x => ?_, List.nodup_nil⟩, fun t ht => (by cases ht)⟩
    simp [hdead]
  · let d : Nat → T := fun y => (f.getData y).getD (Classical.arbitrary T)
    have hd : ∀ y, s.alive y = true → f.getData y = some (d y) := fun y hy => by
      obtain ⟨v, hv⟩ := data_some hm hy
      simp [d, hv]
    let roots := (List.range s.size).filter fun x => s.alive x && (s.parent x).isNone
    have hroots : ∀ x, x ∈ roots ↔ s.alive x = true ∧ s.parent x = none := fun x => by
      simp only [roots, List.mem_filter, List.mem_range, Bool.and_eq_true, Option.isNone_iff_eq_none]
      exact ⟨fun h => h.2, fun h => ⟨hv.alive_lt x h.1, h⟩⟩
    have hex : ∀ x, ∃ t : Tree Nat, s.alive x = true → t.root = x ∧ Tree.IsTree s.kids t := fun x => by
      by_cases hx : s.alive x = true
      · obtain ⟨t, h1, h2⟩ := Tree.exists_tree hv hx
        exact ⟨t, fun _ => ⟨h2, h1⟩⟩
      · exact ⟨.node x [], fun h => absurd h hx⟩
    choose tr htr using hex
    let lab : Tree Nat → Tree (Nat × T) := fun t => t.map fun y => (y, d y)
    have hsk : ∀ t, Wood.sk (lab t) = t := by
      intro t
      simp only [lab, Wood.sk]
      rw [Tree.map_map]
      refine Tree.ind (P := fun t => t.map _ = t) (fun a ts ih => ?_) t
      rw [Tree.map_node]
      congr 1
      conv_rhs => rw [← List.map_id ts]
      exact List.map_congr_left ih
    have hid : ∀ x ∈ roots, Wood.idOf (lab (tr x)) = x := fun x hx => by
      rw [← Wood.root_sk, hsk]; exact (htr x ((hroots x).1 hx).1).1
    have hmap : ((roots.map fun x => lab (tr x)).map Wood.idOf) = roots := by
      rw [List.map_map]
      conv_rhs => rw [← List.map_id roots]
      exact List.map_congr_left hid
    refine ⟨⟨s.size, roots.map fun x => lab (tr x)⟩, hm, rfl, ⟨fun t ht => ?_, fun x => ?_, ?_⟩, fun t ht p hp => ?_⟩
    · obtain ⟨x, hx, rfl⟩ := List.mem_map.1 ht
      rw [hsk]; exact (htr x ((hroots x).1 hx).1).2
    · rw [hmap]; exact hroots x
    · rw [hmap]; exact List.nodup_range.filter _
    · obtain ⟨x, hx, rfl⟩ := List.mem_map.1 ht
      have hx' := ((hroots x).1 hx).1
      simp only [lab] at hp
      rw [Tree.preorder_map] at hp
      obtain ⟨y, hy, rfl⟩ := List.mem_map.1 hp
      exact hd y (Tree.mem_alive hv (htr x hx').2 (by rw [(htr x hx').1]; exact hx') hy)

/-- **C65** from any consistent forest instead of the empty one: there is a naive forest from which every client
gets the same answers. -/
theorem C65_reference_from {f : Forest T} {s : Shape} (hm : Models f s) : ∃ r : Plain T, ∀ (cap um : Nat)
    (client : List (Ans T) → Req T) (n : Nat),
    (∃ rest, transcript cap um client n f [] = Plain.transcript cap um client n r [] ++ rest) ∧
    ((Plain.transcript cap um client n r []).length = n →
      transcript cap um client n f [] = Plain.transcript cap um client n r []) := by
  obtain ⟨r, hr⟩ := plain_exists hm
  refine ⟨r, fun cap um client n => ?_⟩
  obtain ⟨rest, h1, h2⟩ := plain_run cap um client n [] hr
  refine ⟨⟨rest, h1⟩, fun h => ?_⟩
  have : rest = [] := List.length_eq_zero_iff.1 (by simp at h2; omega)
  rw [h1, this, List.append_nil]

/-- **C65**: the only calls for which nothing is promised are those of `insert`, `try_adopt` and `adopt` that put a
node where it already is, and those of `remove_hooked` whose hook panics before its last call. -/
theorem C65_promised (cap um : Nat) (r : Plain T) (q : Req T) (h : r.exec cap um q = none) :
    (∃ x dest, (q = .insert x dest ∨ (∃ self ad, (q = .tryAdopt self x ad ∨ q = .adopt self x ad) ∧
        dest = adoptPlace self ad)) ∧ r.there x dest.place = true) ∨
    (∃ x k t, q = .remove x (some k) ∧ Wood.findL x r.trees = some t ∧ k + 1 < t.count) := by
  have key : ∀ x (dest : InsertAs), r.insert x dest.place = none → r.there x dest.place = true := by
    intro x dest hn
    unfold Plain.insert at hn
    split at hn
    · cases hn
    · split at hn
      · split at hn
        · cases hn
        · split at hn
          · assumption
          · cases hn
      · cases hn
  cases q with
  | insert x dest => exact .inl ⟨x, dest, .inl rfl, key x dest h⟩
  | tryAdopt self x ad =>
    simp only [Plain.exec] at h
    split at h
    · exact .inl ⟨x, _, .inr ⟨self, ad, .inl rfl, rfl⟩, key x _ h⟩
    · cases h
  | adopt self x ad =>
    simp only [Plain.exec] at h
    split at h
    · exact .inl ⟨x, _, .inr ⟨self, ad, .inr rfl, rfl⟩, key x _ (by simpa using h)⟩
    · cases h
  | nodeCreate self d ad =>
    simp only [Plain.exec] at h
    split at h <;> cases h
  | remove x limit =>
    simp only [Plain.exec, Plain.removeForce] at h
    split at h
    · rename_i t k ht
      split at h
      · rename_i hk
        exact .inr ⟨x, k, t, rfl, ht, hk⟩
      · split at h <;> cases h
    · cases h
  | _ => cases h

namespace PlainExample

/-- A client that makes a fixed sequence of calls: it builds trees, moves, copies, dissolves and removes, and looks
at the results in between. -/
def calls : List (Req Nat) :=
  [.createRoot 10, .createInsert 11 (.lastChildOf 0), .createInsert 12 (.lastChildOf 0),
   .createInsert 13 (.previousSiblingOf 2), .chain 20 [.child 21, .child 22, .parent, .sibling 23, .tryParent],
   .insert 4 (.nextSiblingOf 1), .dft 0 [.front, .front, .back, .front, .back], .row 0 .children [.back, .front],
   .insert 0 (.lastChildOf 5), .detachSingle 4, .nodeCreate 1 30 .nextSibling, .copy 0 (fun d => some (d + 100)) none, .bft 9 20,
   .ancestors 12 true 9, .remove 0 none, .alive 5, .data 12, .link 12 .parent, .adopt 9 9 .lastChild, .detach 77,
   .setData 9 7, .data 9, .nest 1 [.addChild 2, .createTree 3 [.addChild 4, .boom], .addChild 5], .ends 9]

/-- The client. -/
def client (seen : List (Ans Nat)) : Req Nat := (calls[seen.length]?).getD (.alive 0)

/-- The naive implementation promises something for each of them; the last answers are: what was dropped, a dead
node, the datum of a copy and its parent, an `adopt` that panics, a dead node, a write, a builder whose closure
panics, and the ends of a child list. -/
example : (Plain.transcript 100 1000 client 24 Plain.empty []).length = 24 ∧
    (transcript 100 1000 client 24 Forest.new []).drop 14 =
    [.dropped [11, 30, 22, 21, 23, 13, 12, 10], .flag false, .datum (some 121), .link (some 9), .panicked, .panicked,
      .flag true, .datum (some 7), .panicked, .ends (some (10, 16))] := by
  have h : (Plain.transcript 100 1000 client 24 Plain.empty []).length = 24 := by decide +kernel
  refine ⟨h, ?_⟩
  rw [(C65_reference 100 1000 client 24).2 h]
  decide +kernel

/-- A copy for which there are two IDs only: the first two nodes get made. -/
example : (Plain.transcript 6 1000 (fun seen => ([.createRoot 0, .createInsert 1 (.lastChildOf 0), .createInsert 2 (.lastChildOf 1),
    .createInsert 3 (.lastChildOf 0), .copy 0 some none, .link 4 .lastChild, .link 5 .lastChild, .alive 6] : List (Req Nat))[seen.length]?.getD (.alive 0))
    8 Plain.empty []).drop 4 = [.panicked, .link (some 5), .link none, .flag false] := by decide +kernel

/-- Panics in the middle: of `T::clone` (for the datum 12), of the callback of a copy (in its third call), and of the
hook of a panic-safe removal (in its second call).  In between and at the end, what is left gets printed. -/
example : (transcript 100 1000 (fun seen => ([.nest 10 [.addChild 11, .createTree 12 [.addChild 13], .addChild 14],
    .copy 0 (fun d => if d = 12 then none else some (d + 10)) none, .print 5 (fun d => [[Char.ofNat (d + 77)]]),
    .copy 0 (fun d => some (d + 20)) (some 2), .print 7 (fun d => [[Char.ofNat (d + 67)]]),
    .removeSafe 0 (some 1), .print 0 (fun d => [['<'], [Char.ofNat (d + 87)], ['>']]), .alive 3, .alive 2, .removeSafe 0 (some 4), .alive 0] :
    List (Req Nat))[seen.length]?.getD (.alive 0)) 11 Forest.new []) =
    [.id 0, .panicked, .text true "a\n`-- b".toList, .panicked, .text true "a\n|-- b\n`-- c".toList,
      .panicked, .text true "<a>\n|-- <c>\n`-- <e>".toList, .flag false, .flag true, .dropped [12, 14, 10], .flag false] := by
  rw [(C65_reference 100 1000 _ 11).2 (by decide +kernel)]
  decide +kernel

/-- More: neighbours with their data; a hook whose last call panics (everything is removed); `remove` and
`clone_local_tree`; the printing of texts of several lines. -/
example : (transcript 100 1000 (fun seen => ([.nest 10 [.addChild 11, .createTree 12 [.addChild 13], .addChild 14],
    .near 1 .next, .near 4 .next, .nearEnds 0, .nearEnds 4, .near 9 .parent, .dup 2 (fun d => some (d + 50)), .nearEnds 5,
    .remove 5 (some 1), .alive 5, .alive 6, .print 2 (fun d => [['u', '\n'], [Char.ofNat (d + 87)]]), .drop 2, .near 1 .next, .drop 2] :
    List (Req Nat))[seen.length]?.getD (.alive 0)) 15 Forest.new []) =
    [.id 0, .near (some (2, 12)), .near none, .nearEnds (some ((1, 11), 4, 14)), .nearEnds none, .absent, .id 5,
      .nearEnds (some ((6, 63), 6, 63)), .panicked, .flag false, .flag false, .text true "u\nc\n`--    u\n    d".toList, .done,
      .near (some (4, 14)), .done] := by
  rw [(C65_reference 100 1000 _ 15).2 (by decide +kernel)]
  decide +kernel

end PlainExample

/-! ### The hypotheses can be met

Each example applies the theorem named in its comment to a concrete forest. -/

section
/-- `C65_reference_from`: the sample forest. -/
example := C65_reference_from Sample.models

/-- `C65_promised`: inserting the only child of the root where it is. -/
example := C65_promised 100 255 (⟨2, [.node (0, 10) [.node (1, 11) []]]⟩ : Plain Nat) (.insert 1 (.lastChildOf 0)) rfl

end

end Treena
