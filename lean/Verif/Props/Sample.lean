import Verif.Proof.Clone
import Verif.Proof.Bfs
/-!
# A concrete forest, used to show that the hypotheses of the theorems are satisfiable

The forest is produced by running the modelled API:

```
0            6          (7 was created and removed)
|-- 1
|-- 2
|   |-- 4
|   `-- 5
`-- 3
```
Node `i` holds the datum `10 + i`. -/

set_option autoImplicit false

namespace Treena
namespace Sample
open Shape

variable {T : Type} {f : Forest T} {s : Shape}

theorem new_models : Models (Forest.new : Forest T) Shape.empty := by
  refine .of_agrees ⟨?_, ?_, ?_, ?_, ?_⟩ ⟨rfl, ?_⟩ rfl ?_
  · intro x h; cases h
  · intro x p h; cases h
  · intro x p; simp [Shape.empty]
  · intro p; simp [Shape.empty]
  · intro x; exact .root rfl
  · intro x; simp [Forest.new, Hier.get, Shape.entry, Shape.empty]
  · intro x; simp [Forest.new, Forest.getData, Shape.empty]

theorem createRoot_state (hm : Models f s) {cap : Nat} (hcap : s.size < cap) (d : T) :
    Models (Forest.createRoot cap d f).state s.addRoot := by
  obtain ⟨f', h, h1, _⟩ := createRoot_models hm hcap d
  rw [h]; exact h1

theorem addChild_state (hm : Models f s) {cap : Nat} (hcap : s.size < cap) (d : T) {p : Nat}
    (hp : s.alive p = true) :
    Models (Forest.createInsert cap d (.lastChildOf p) f).state (s.addChild' p) := by
  obtain ⟨f', h, h1, _⟩ := createInsert_models hm hcap d (dest := .lastChildOf p) (P := p) hp rfl
  rw [h]
  have he : s.addRoot.move s.size (InsertAs.lastChildOf p).place = s.addChild' p :=
    hm.valid.addChild_eq p
  rw [← he]; exact h1

theorem removeLeaf_state (hm : Models f s) {x : Nat} (hx : s.alive x = true) (hk : s.kids x = []) :
    Models (Forest.remove x f).state (s.kill fun z => decide (z = x)) := by
  have ht : Tree.IsTree s.kids (.node x []) := ⟨by simpa using hk, trivial⟩
  obtain ⟨f', h⟩ := removeHooked_spec (S := Unit) (fun s _ => .ok s) hm ht hx ()
  obtain ⟨d, hd⟩ := data_some hm hx
  simp only [Tree.postorder, Tree.postorderL, List.nil_append, List.filterMap_cons, hd, List.filterMap_nil, feed,
    Option.map_none, Tree.root, Tree.preorder, Tree.preorderL, List.mem_singleton] at h
  unfold Forest.remove
  rw [h.1]; exact h.2.1

/-- The forest as the modelled program builds it. -/
def built : Forest Nat :=
  let f := (Forest.createRoot 100 10 Forest.new).state
  let f := (Forest.createInsert 100 11 (.lastChildOf 0) f).state
  let f := (Forest.createInsert 100 12 (.lastChildOf 0) f).state
  let f := (Forest.createInsert 100 13 (.lastChildOf 0) f).state
  let f := (Forest.createInsert 100 14 (.lastChildOf 2) f).state
  let f := (Forest.createInsert 100 15 (.lastChildOf 2) f).state
  let f := (Forest.createRoot 100 16 f).state
  let f := (Forest.createRoot 100 17 f).state
  (Forest.remove 7 f).state

/-- Its child lists. -/
def kids : Nat → List Nat := fun x =>
  if x = 0 then [1, 2, 3] else if x = 2 then [4, 5] else []
/-- Its parents. -/
def parent : Nat → Option Nat := fun x =>
  if x = 1 ∨ x = 2 ∨ x = 3 then some 0 else if x = 4 ∨ x = 5 then some 2 else none
/-- Its shape. -/
def shape : Shape := Shape.mk 8 (fun x => decide (x < 7)) parent kids

theorem models : Models built shape := by
  have h1 := createRoot_state (T := Nat) new_models (cap := 100) (by decide) 10
  have h2 := addChild_state h1 (cap := 100) (by decide) 11 (p := 0) rfl
  have h3 := addChild_state h2 (cap := 100) (by decide) 12 (p := 0) rfl
  have h4 := addChild_state h3 (cap := 100) (by decide) 13 (p := 0) rfl
  have h5 := addChild_state h4 (cap := 100) (by decide) 14 (p := 2) rfl
  have h6 := addChild_state h5 (cap := 100) (by decide) 15 (p := 2) rfl
  have h7 := createRoot_state h6 (cap := 100) (by decide) 16
  have h8 := createRoot_state h7 (cap := 100) (by decide) 17
  have h9 := removeLeaf_state h8 (x := 7) rfl rfl
  have e : (Shape.kill (Shape.empty.addRoot.addChild' 0 |>.addChild' 0 |>.addChild' 0 |>.addChild' 2
      |>.addChild' 2 |>.addRoot |>.addRoot) fun z => decide (z = 7)) = shape := by
    unfold Shape.kill Shape.addChild' Shape.addRoot Shape.empty shape
    simp only [Shape.mk.injEq]
    refine ⟨by decide, ?_, ?_, ?_⟩
    · funext x
      rcases x with _ | _ | _ | _ | _ | _ | _ | _ | x <;> first | rfl | simp [upd]
    · funext x
      rcases x with _ | _ | _ | _ | _ | _ | _ | _ | x <;> first | rfl | simp [upd, parent]
    · funext x
      rcases x with _ | _ | _ | _ | _ | _ | _ | _ | x <;> first | rfl | simp [upd, kids]
  rw [← e]; exact h9

/-- The tree seen from node 0. -/
def tree : Tree Nat := .node 0 [.node 1 [], .node 2 [.node 4 [], .node 5 []], .node 3 []]
/-- The tree seen from node 2. -/
def tree2 : Tree Nat := .node 2 [.node 4 [], .node 5 []]

theorem isTree : Tree.IsTree shape.kids tree := by
  simp [tree, Tree.IsTree, Tree.IsForest, Tree.root, shape, kids]
theorem isTree2 : Tree.IsTree shape.kids tree2 := by
  simp [tree2, Tree.IsTree, Tree.IsForest, Tree.root, shape, kids]

end Sample
end Treena
