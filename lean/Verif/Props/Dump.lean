import Verif.Proof.DumpData
import Verif.Props.History
import Verif.Props.Sample
import Verif.Spec.MapData
import Verif.Spec.Plain
import Verif.Props.SampleRun
/-!
# C75: the `Debug` output of a forest shows all of it

`dbg` is the `Debug` formatter of the data; `alt` is `true` for `{:#?}` and `false` for `{:?}`.
-/
set_option autoImplicit false

namespace Treena
variable {T U : Type} {cap : Nat}

/-- **C75**, structure: if the dumps (`{:?}` or `{:#?}`) of two forests are equal, whatever their data and its formatters
print, then all links of all nodes are equal.  No assumption is made on the forests; they may be destroyed. -/
theorem C75_dump_shows_links {alt : Bool} {dbg : Bool → T → Text} {dbg' : Bool → U → Text} {f : Forest T} {g : Forest U}
    (h : f.dump alt dbg = g.dump alt dbg') (x : Nat) (k : Link) : Req.linkOf f x k = Req.linkOf g x k := by
  have := Forest.dump_hier h
  cases k <;>
    simp only [Req.linkOf, Forest.parentId, Forest.nextSiblingId, Forest.prevSiblingId, Forest.firstChildId, Forest.lastChildId,
      Forest.nbr, this]

/-- **C75**, structure, for forests made by calls (harmful ones included): equal dumps mean that the forests are equal up
to the data; so the same nodes are alive, and equally many IDs have been issued. -/
theorem C75_dump_shows_structure {alt : Bool} {dbg : Bool → T → Text} {dbg' : Bool → U → Text} {f : Forest T} {g : Forest U}
    (hf : Reachable cap f) (hg : Reachable cap g) (h : f.dump alt dbg = g.dump alt dbg') :
    f.mapData (fun _ => ()) = g.mapData (fun _ => ()) ∧ ∀ x, f.isAlive x = g.isAlive x := by
  have hh := Forest.dump_hier h
  have hal : ∀ x, f.isAlive x = g.isAlive x := fun x => by rw [hf.coherent.live, hg.coherent.live, hh]
  refine ⟨?_, hal⟩
  have hd : f.data.map (Option.map fun _ => ()) = g.data.map (Option.map fun _ => ()) := by
    apply List.ext_getElem
    · simp [hf.coherent.len, hg.coherent.len, hh]
    · intro n h1 h2
      have := hal n
      simp only [List.length_map] at h1 h2
      simp only [Forest.isAlive, List.getElem?_eq_getElem h1, List.getElem?_eq_getElem h2] at this
      simp only [List.getElem_map]
      revert this
      cases f.data[n] <;> cases g.data[n] <;> simp
  unfold Forest.mapData
  rw [hh, hd]

/-- **C75**, data: with a formatter that prints different data differently, forests with equal `{:#?}` dumps are equal,
whatever texts it prints (line breaks and brackets included). -/
theorem C75_pretty_dump_shows_all {dbg : Bool → T → Text} (hd : ∀ a b, dbg true a = dbg true b → a = b) {f g : Forest T} :
    f.dump true dbg = g.dump true dbg ↔ f = g := by
  refine ⟨fun h => ?_, fun h => by rw [h]⟩
  have h1 := Forest.dump_hier h
  have h2 := Forest.dump_alt_data (fun a b => hd a b) h
  cases f; cases g; simp_all

/-- **C75**, data, `{:?}`: for this the text of a datum must not be confused with what follows it. -/
theorem C75_plain_dump_shows_all {dbg : Bool → T → Text}
    (hd : ∀ (a b : T) (s t : Text), dbg false a ++ ')' :: s = dbg false b ++ ')' :: t → a = b ∧ s = t) {f g : Forest T} :
    f.dump false dbg = g.dump false dbg ↔ f = g := by
  refine ⟨fun h => ?_, fun h => by rw [h]⟩
  have h1 := Forest.dump_hier h
  have h2 := Forest.dump_plain_data hd h
  cases f; cases g; simp_all

/-- That condition is needed for `{:?}`: with texts as data, printed as they are, two different forests of two roots have
the same `{:?}` dump (and, by the above, not the same `{:#?}` dump). -/
theorem C75_plain_dump_ambiguous : ∃ f g : Forest Text, Reachable 100 f ∧ Reachable 100 g ∧ f ≠ g ∧
    f.dump false (fun _ t => t) = g.dump false (fun _ t => t) :=
  ⟨_, _, ⟨[.createRoot "a), Some(b".toList, .createRoot "c".toList], rfl⟩,
    ⟨[.createRoot "a".toList, .createRoot "b), Some(c".toList], rfl⟩, by decide +kernel, by decide +kernel⟩

/-- **C75**, IDs: different IDs print differently, also at the beginning of a longer text; and an ID is printed in one line,
also by `{:#?}`. -/
theorem C75_ids (a b : Nat) : (Dump.id a = Dump.id b ↔ a = b) ∧
    (∀ s t : Text, Dump.id a ++ s = Dump.id b ++ t → a = b) ∧ '\n' ∉ Dump.id a := by
  refine ⟨⟨fun h => (Dump.id_code a b [] [] (by rw [h])).1, fun h => by rw [h]⟩, fun s t h => (Dump.id_code a b s t h).1, ?_⟩
  intro h
  have h1 : '\n' ∉ "NodeId(".toList := by decide +kernel
  have h2 : '\n' ∉ ")".toList := by decide +kernel
  have h3 : '\n' ∉ Dump.decimal a := Dump.not_in_decimal (c := '\n') (.inl (by decide +kernel)) a
  rcases List.mem_append.1 h with h | h
  · exact (List.mem_append.1 h).elim h1 h3
  · exact h2 h

/-- **C75**, errors: the messages of the three errors are different, and one line each. -/
theorem C75_errors (e e' : StructureError) : (e.display = e'.display ↔ e = e') ∧ '\n' ∉ e.display := by
  constructor
  · cases e <;> cases e' <;> decide +kernel
  · cases e <;> decide +kernel

/-! ### Non-vacuity -/

/-- The dumps of a small forest: a root with one child, and a removed node. -/
example :
    let f : Forest Nat := Op.run 100 Forest.new [.createRoot 7, .createInsert 10 (.lastChildOf 0), .createRoot 9, .remove 2]
    String.ofList (f.dump false fun _ => Dump.decimal) =
      "Forest { hierarchy: Hierarchy { neighbors: [Neighbors { parent: None, prev_sibling_cyclic: NodeId(0), \
      next_sibling: None, first_child: NodeId(1) }, Neighbors { parent: NodeId(0), prev_sibling_cyclic: NodeId(1), \
      next_sibling: None, first_child: None }, Neighbors { parent: None, prev_sibling_cyclic: None, next_sibling: None, \
      first_child: None }] }, data: [Some(7), Some(10), None] }" := by decide +kernel

/-- Decimal numbers are data whose dumps can be read back, by `{:?}` and by `{:#?}`. -/
example (f g : Forest Nat) : (f.dump false (fun _ => Dump.decimal) = g.dump false (fun _ => Dump.decimal) ↔ f = g) ∧
    (f.dump true (fun _ => Dump.decimal) = g.dump true (fun _ => Dump.decimal) ↔ f = g) := by
  refine ⟨C75_plain_dump_shows_all fun a b s t h => ?_, C75_pretty_dump_shows_all fun a b h => Dump.decimal_inj h⟩
  have hp : ∀ n, ')' ∉ Dump.decimal n := fun n => Dump.not_in_decimal (c := ')') (.inl (by decide)) n
  obtain ⟨h1, h2⟩ := Dump.split_at (hp a) (hp b) h
  exact ⟨Dump.decimal_inj h1, h2⟩

/-! ### The hypotheses can be met

Each example applies the theorem named in its comment to a concrete forest. -/

section
/-- `C75_dump_shows_links`: two forests with equal dumps: equal ones. -/
example := C75_dump_shows_links (alt := true) (dbg := fun _ (n : Nat) => (toString n).toList) (f := Sample.built) rfl 4 .parent

/-- `C75_dump_shows_structure`: the same. -/
example := C75_dump_shows_structure (alt := true) (dbg := fun _ (n : Nat) => (toString n).toList) Sample.reachable Sample.reachable rfl

end

end Treena
