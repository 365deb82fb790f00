import Verif.Proof.LooksDialogue
import Verif.Proof.Insert
import Verif.Props.Hang
/-!
# C92: how much of a forest a call looks at

In every forest, also a destroyed one, and in both builds.  `Spec/Looks.lean` has the vocabulary.
-/
set_option autoImplicit false

namespace Treena
variable {T : Type} {cap um : Nat}

/-- The answer of a look-up, and of an iterator used `n` times, is determined by a bounded number of slots. -/
theorem C92_look_ups (b : Build) (cap um : Nat) (f : Forest T) (q : Req T) {n : Nat} (hq : q.slots = some n) :
    ∃ L : List Nat, L.length ≤ n ∧ ∀ g : Forest T, AgreeAt L f g → (b.exec cap um g q).2 = (b.exec cap um f q).2 :=
  Looks.lookUp q hq b cap um

/-- Making an iterator is bounded. -/
theorem C92_start (um : Nat) (f : Forest T) (q : IterReq) (hq : ∀ x, q ≠ .bft x ∧ q ≠ .abft x) :
    ∃ L : List Nat, L.length ≤ 6 ∧ ∀ g : Forest T, AgreeAt L f g → Iter.start um g q = Iter.start um f q :=
  Looks.start um q hq

/-- One call of `next`, wherever the iterator is and however long it has still to go. -/
theorem C92_next (b : Build) (um : Nat) (f : Forest T) {it : Iter} (hi : it.Brief) :
    ∃ L : List Nat, L.length ≤ 2 ∧ ∀ g : Forest T, AgreeAt L f g → b.next um g it = b.next um f it :=
  Looks.next b um hi

/-- One call of `next_back`. -/
theorem C92_next_back (b : Build) (um : Nat) (f : Forest T) (it : Iter) :
    ∃ L : List Nat, L.length ≤ 3 ∧ ∀ g : Forest T, AgreeAt L f g → b.nextBack um g it = b.nextBack um f it :=
  Looks.nextBack b um it

/-- `peek` and `peek_back`. -/
theorem C92_peek (b : Build) (um : Nat) (f : Forest T) (it : Iter) :
    (∃ L : List Nat, L.length ≤ 1 ∧ ∀ g : Forest T, AgreeAt L f g → b.peek um g it = b.peek um f it) ∧
    (∃ L : List Nat, L.length ≤ 1 ∧ ∀ g : Forest T, AgreeAt L f g → it.peekBack g = it.peekBack f) :=
  ⟨Looks.peek b um it, Looks.peekBack it⟩

/-- A client that makes `n` such calls, each chosen by the answers so far and looking at `k` slots at most, sees at most
`n * k` slots: every forest with the same contents there gives it the same answers. -/
theorem C92_clients (b : Build) (cap um : Nat) (f : Forest T) {client : List (PoolAns T) → PoolReq T} {k : Nat}
    (hc : ∀ seen, ∃ m, (client seen).slots = some m ∧ m ≤ k) (n : Nat) :
    ∃ L : List Nat, L.length ≤ n * k ∧ ∀ g : Forest T, AgreeAt L f g →
      b.poolTranscript cap um client n (g, []) [] = b.poolTranscript cap um client n (f, []) [] :=
  Looks.transcript b hc n (its := []) (fun _ h => (List.not_mem_nil h).elim) []

/-- `detach` looks at and changes a bounded number of slots: at most nine determine its outcome and the new contents of every
slot that it changes. -/
theorem C92_detach (b : Build) (cap um : Nat) (f : Forest T) (x : Nat) : ∃ L : List Nat, L.length ≤ 9 ∧ ∀ g : Forest T, AgreeAt L f g →
    (b.exec cap um g (.detach x)).2 = (b.exec cap um f (.detach x)).2 ∧
    AgreeAt L (b.exec cap um f (.detach x)).1 (b.exec cap um g (.detach x)).1 ∧
    ∀ y, y ∉ L → (b.exec cap um g (.detach x)).1.hier.nbrs[y]? = g.hier.nbrs[y]? ∧ (b.exec cap um g (.detach x)).1.data[y]? = g.data[y]? :=
  Touches.detach b x

/-- A write through `data_mut` looks at and changes one slot. -/
theorem C92_set_data (b : Build) (cap um : Nat) (f : Forest T) (x : Nat) (v : T) : Touches 1 f fun g => b.exec cap um g (.setData x v) :=
  Touches.setData b x v

/-- `insert` looks at and changes at most 27 slots besides those of the destination and its ancestors: if there are `n` of
these, `n + 27` slots determine its outcome and the new contents of every slot that it changes.  In any forest, also a
destroyed one. -/
theorem C92_insert (b : Build) (cap um : Nat) (f : Forest T) (x : Nat) (d : InsertAs) {n : Nat} (hn : f.TopWithin n d.toAnchor) :
    ∃ L : List Nat, L.length ≤ n + 27 ∧ ∀ g : Forest T, AgreeAt L f g →
      (b.exec cap um g (.insert x d)).2 = (b.exec cap um f (.insert x d)).2 ∧
      AgreeAt L (b.exec cap um f (.insert x d)).1 (b.exec cap um g (.insert x d)).1 ∧
      ∀ y, y ∉ L → (b.exec cap um g (.insert x d)).1.hier.nbrs[y]? = g.hier.nbrs[y]? ∧
        (b.exec cap um g (.insert x d)).1.data[y]? = g.data[y]? :=
  Touches.insert b x d hn

/-- In a forest as it should be: `n` is the length of the path from the destination to its root. -/
theorem C92_insert_reachable {f : Forest T} {s : Shape} (hm : Models f s) (b : Build) (cap um x : Nat) (d : InsertAs) {up : List Nat}
    (ha : s.alive d.toAnchor = true) (hup : UpPath s.parent d.toAnchor up) :
    Touches (up.length + 27) f fun g => b.exec cap um g (.insert x d) :=
  C92_insert b cap um f x d (Forest.topWithin_iff.mpr (hup.topWithin fun y hy => by
    have hya := (hup.mem_iff.1 hy).alive hm.valid ha
    exact ⟨(hm.agrees.live_iff hm.valid y).2 hya, by rw [hm.agrees.get_alive hya]; rfl⟩))
/-- The same for `try_adopt` and `adopt`, which look at one node more. -/
theorem C92_adopt (b : Build) (cap um : Nat) (f : Forest T) (y x : Nat) (d : AdoptAs) {n : Nat} (hn : f.TopWithin n y) :
    (Touches (n + 28) f fun g => b.exec cap um g (.tryAdopt y x d)) ∧ Touches (n + 28) f fun g => b.exec cap um g (.adopt y x d) :=
  ⟨Touches.tryAdopt b y x d hn, Touches.adopt b y x d hn⟩

/-- `create_root` depends on the number of IDs issued and writes the new slot only: among the forests that have issued as many
IDs its outcome is the same. -/
theorem C92_create_root (b : Build) (cap um : Nat) (f : Forest T) (d : T) (hl : f.data.length = f.hier.nbrs.length) :
    TouchesNew 2 f fun g => b.exec cap um g (.createRoot d) :=
  TouchesNew.createRoot b d hl

/-- `create_insert`: besides the number of IDs issued it depends on and changes at most 29 slots other than those of the destination
and its ancestors. -/
theorem C92_create_insert (b : Build) (cap um : Nat) (f : Forest T) (d : T) (dest : InsertAs) {n : Nat}
    (hn : f.TopWithin n dest.toAnchor) :
    ∃ L : List Nat, L.length ≤ n + 29 ∧ ∀ g : Forest T, g.hier.nbrs.length = f.hier.nbrs.length → g.data.length = f.data.length → AgreeAt L f g →
      (b.exec cap um g (.createInsert d dest)).2 = (b.exec cap um f (.createInsert d dest)).2 ∧
      AgreeAt L (b.exec cap um f (.createInsert d dest)).1 (b.exec cap um g (.createInsert d dest)).1 ∧
      ∀ y, y ∉ L → (b.exec cap um g (.createInsert d dest)).1.hier.nbrs[y]? = g.hier.nbrs[y]? ∧
        (b.exec cap um g (.createInsert d dest)).1.data[y]? = g.data[y]? :=
  TouchesNew.createInsert b d dest hn

/-- `NodeMut::create` looks at one node more than `create_insert`. -/
theorem C92_node_create (b : Build) (cap um : Nat) (f : Forest T) (y : Nat) (d : T) (dest : AdoptAs) {n : Nat} (hn : f.TopWithin n y) :
    TouchesNew (n + 30) f fun g => b.exec cap um g (.nodeCreate y d dest) :=
  TouchesNew.nodeCreate b y d dest hn

/-- `detach_single`, in a forest as it should be: if the node has a parent and children, its ancestors and its children are looked
at, and besides them at most 37 slots and one more for each child. -/
theorem C92_detach_single {f : Forest T} {s : Shape} (hm : Models f s) (b : Build) (cap um x : Nat) {p : Nat} {up : List Nat}
    (hp : s.parent x = some p) (hk : s.kids x ≠ []) (hup : UpPath s.parent p up) :
    ∃ L : List Nat, L.length ≤ up.length + 2 * (s.kids x).length + 37 ∧ ∀ g : Forest T, AgreeAt L f g →
      (b.exec cap um g (.detachSingle x)).2 = (b.exec cap um f (.detachSingle x)).2 ∧
      AgreeAt L (b.exec cap um f (.detachSingle x)).1 (b.exec cap um g (.detachSingle x)).1 ∧
      ∀ y, y ∉ L → (b.exec cap um g (.detachSingle x)).1.hier.nbrs[y]? = g.hier.nbrs[y]? ∧
        (b.exec cap um g (.detachSingle x)).1.data[y]? = g.data[y]? :=
  single_exec b x _ fun _ hfin => single_splice hm.agrees hm.valid hp hk hup hfin

/-- In the other cases, a removed node included, `detach_single` looks at and changes at most 20 slots. -/
theorem C92_detach_single_simple {f : Forest T} {s : Shape} (hm : Models f s) (b : Build) (cap um x : Nat)
    (hs : s.kids x = [] ∨ s.parent x = none) : Touches 20 f fun g => b.exec cap um g (.detachSingle x) := by
  refine single_exec b x _ fun fin _ => ?_
  cases hx : s.alive x with
  | true => exact single_simple hm.agrees hm.valid hx hs fin
  | false => exact (single_dead hm.agrees hm.valid hx fin).mono (by omega)

/-- A client that makes `n` calls, each of which looks at and changes at most `k` slots of the forest on which it is made: `n * k`
slots determine all answers and the new contents of every slot that is changed. -/
theorem C92_dialogue (b : Build) (cap um : Nat) (f : Forest T) (client : List (Ans T) → Req T) (n k : Nat)
    (hc : ∀ i, i < n → ∀ f' seen, b.dialogue cap um client i f [] = (f', seen) → Touches k f' fun g => b.exec cap um g (client seen)) :
    ∃ L : List Nat, L.length ≤ n * k ∧ ∀ g : Forest T, AgreeAt L f g →
      (b.dialogue cap um client n g []).2 = (b.dialogue cap um client n f []).2 ∧
      AgreeAt L (b.dialogue cap um client n f []).1 (b.dialogue cap um client n g []).1 ∧
      ∀ y, y ∉ L → (b.dialogue cap um client n g []).1.hier.nbrs[y]? = g.hier.nbrs[y]? ∧
        (b.dialogue cap um client n g []).1.data[y]? = g.data[y]? :=
  Touches.dialogue b n f [] fun i hi r hr => hc i hi r.1 r.2 hr

/-- A client that looks nodes up, detaches them and writes their data, in every forest. -/
theorem C92_writers (b : Build) (cap um : Nat) (f : Forest T) {client : List (Ans T) → Req T} {k : Nat}
    (hc : ∀ seen, ∃ m, (client seen).cost = some m ∧ m ≤ k) (n : Nat) :
    Touches (n * k) f fun g => b.dialogue cap um client n g [] :=
  C92_dialogue b cap um f client n k fun _ _ _ seen _ => by
    obtain ⟨m, hm, hk⟩ := hc seen
    exact (Touches.cost b _ hm).more hk

/-! ### The bounds say something -/

/-- A root with one child. -/
def twoNodes : Forest Nat := ⟨⟨[⟨none, some 0, none, some 1⟩, ⟨some 0, some 1, none, none⟩]⟩, [some 7, some 8]⟩
example : twoNodes = Op.run 100 Forest.new [.createRoot 7, .createInsert 8 (.lastChildOf 0)] := by decide

/-- One slot does not determine the last child of a node. -/
theorem C92_last_child_needs_two (b : Build) :
    ¬ ∃ L : List Nat, L.length ≤ 1 ∧ ∀ g : Forest Nat, AgreeAt L twoNodes g →
      (b.exec 100 255 g (.link 0 .lastChild)).2 = (b.exec 100 255 twoNodes (.link 0 .lastChild)).2 := by
  rintro ⟨L, hl, h⟩
  by_cases h0 : (0 : Nat) ∈ L
  · have hL : L = [0] := by
      match L, hl, h0 with
      | [a], _, h0 => rw [List.mem_singleton.mp h0]
    subst hL
    have := h ⟨⟨[⟨none, some 0, none, some 1⟩, Neighbors.removed]⟩, [some 7, none]⟩ (by intro x hx; cases List.mem_singleton.mp hx; exact ⟨rfl, rfl⟩)
    revert this
    cases b <;> decide
  · have := h ⟨⟨[Neighbors.removed, ⟨some 0, some 1, none, none⟩]⟩, [none, some 8]⟩ (by
      intro x hx
      match x with
      | 0 => exact absurd hx h0
      | 1 => exact ⟨rfl, rfl⟩
      | _ + 2 => exact ⟨rfl, rfl⟩)
    revert this
    cases b <;> decide

/-- The record of a node in a star: node 0 has the children `1, …, n`. -/
def starNode (n i : Nat) : Neighbors :=
  if i = 0 then ⟨none, some 0, none, if n = 0 then none else some 1⟩
  else ⟨some 0, some (if i = 1 then n else i - 1), if i < n then some (i + 1) else none, none⟩
/-- A star. -/
def star (n : Nat) : Forest Nat := ⟨⟨(List.range (n + 1)).map (starNode n)⟩, (List.range (n + 1)).map some⟩
example : star 4 = Op.run 100 Forest.new [.createRoot 0, .createInsert 1 (.lastChildOf 0), .createInsert 2 (.lastChildOf 0),
  .createInsert 3 (.lastChildOf 0), .createInsert 4 (.lastChildOf 0)] := by decide +kernel

theorem star_nbr {n i : Nat} (h : i ≤ n) : (star n).hier.nbrs[i]? = some (starNode n i) := by
  have : i < n + 1 := by omega
  simp [star, this]
theorem starNode_alive (n i : Nat) : (starNode n i).isAlive = true := by
  unfold starNode; split <;> rfl

theorem star_push (n : Nat) : ∀ (fuel c : Nat) (q : List ABft.QEv), 1 ≤ c → c ≤ n → n + 1 - c ≤ fuel →
    ∃ q', ABft.pushChildren (star n).hier fuel (some c) q = .ok q'
  | 0, c, q, h1, h2, h3 => absurd h3 (by omega)
  | fuel + 1, c, q, h1, h2, h3 => by
    have hn : (star n).hier.neighbors c = some (starNode n c) := by
      unfold Hier.neighbors
      rw [star_nbr h2]
      simp [starNode_alive]
    have hc : c ≠ 0 := by omega
    simp only [ABft.pushChildren, hn, expect_some, Neighbors.nextSibling, starNode, hc, if_false]
    by_cases hlt : c < n
    · have := star_push n fuel (c + 1) (q ++ [.node c]) (by omega) (by omega) (by omega)
      simpa [Neighbors.isAlive, hlt] using this
    · exact ⟨q ++ [.node c], by simp [Neighbors.isAlive, hlt, ABft.pushChildren]⟩

theorem star_push_cut {n i : Nat} {g : Hier} (hg : ∀ x, x ≠ i → g.nbrs[x]? = (star n).hier.nbrs[x]?) (hi : g.nbrs[i]? = some Neighbors.removed) :
    ∀ (fuel c : Nat) (q : List ABft.QEv), 1 ≤ c → c ≤ i → i ≤ n → ∃ e, ABft.pushChildren g fuel (some c) q = .error e
  | 0, c, q, h1, h2, h3 => ⟨_, rfl⟩
  | fuel + 1, c, q, h1, h2, h3 => by
    by_cases hc : c = i
    · subst hc
      have : g.neighbors c = none := by unfold Hier.neighbors; rw [hi]; rfl
      exact ⟨_, by simp only [ABft.pushChildren, this, expect_none]; rfl⟩
    · have hn : g.neighbors c = some (starNode n c) := by
        unfold Hier.neighbors
        rw [hg c hc, star_nbr (by omega)]
        simp [starNode_alive]
      have h0 : c ≠ 0 := by omega
      have hlt : c < n := by omega
      obtain ⟨e, he⟩ := star_push_cut hg hi fuel (c + 1) (q ++ [.node c]) (by omega) (by omega) h3
      refine ⟨e, ?_⟩
      simp only [ABft.pushChildren, hn, expect_some, Neighbors.nextSibling, starNode, h0, if_false]
      simpa [Neighbors.isAlive, hlt] using he

theorem exists_missing : ∀ (n : Nat) (L : List Nat), L.length < n → ∃ i, 1 ≤ i ∧ i ≤ n ∧ i ∉ L := by
  intro n L hL
  by_contra hno
  have : (List.range n).map (· + 1) ⊆ L := by
    intro i hi
    obtain ⟨j, hj, rfl⟩ := List.mem_map.mp hi
    by_contra h
    exact hno ⟨j + 1, by omega, by have := List.mem_range.mp hj; omega, h⟩
  have hnd : ((List.range n).map (· + 1)).Nodup := List.Nodup.map (fun a b h => by simpa using h) List.nodup_range
  have := (hnd.subperm this).length_le
  simp at this
  omega

/-- The first `next` of an `AllocatingBreadthFirstTraverse` is not bounded: on a node with `n` children it depends on more than
`k` slots for every `k < n`. -/
theorem C92_allocating_is_not_bounded (um k n : Nat) (h : k < n) :
    ¬ ∃ L : List Nat, L.length ≤ k ∧ ∀ g : Forest Nat, AgreeAt L (star n) g →
      (Build.exec .debug 100 um g (.abft 0 1)).2 = (Build.exec .debug 100 um (star n) (.abft 0 1)).2 := by
  rintro ⟨L, hl, hL⟩
  obtain ⟨i, h1, h2, h3⟩ := exists_missing n L (by omega)
  have hstart : ∀ g : Forest Nat, g.data = (star n).data → g.hier.nbrs[0]? = (star n).hier.nbrs[0]? →
      g.allocatingBreadthFirstTraverse 0 = .ok ⟨[.node 0, .incrementDepth], 0⟩ := by
    intro g hd hn
    have hn' : g.hier.isAlive 0 = true := by
      unfold Hier.isAlive; rw [hn, star_nbr (Nat.zero_le _)]; exact starNode_alive n 0
    have ha : g.isAlive 0 = true := by
      unfold Forest.isAlive; rw [hd]; simp [star]
    simp [Forest.allocatingBreadthFirstTraverse, Forest.iterNew, Forest.nodeOrPanic, Forest.node, ha, ABft.withToplevel, hn']
  have hnext : ∀ g : Forest Nat, g.hier.nbrs[0]? = (star n).hier.nbrs[0]? → ∀ A,
      Mach.abftNext A g.hier ⟨[.node 0, .incrementDepth], 0⟩ =
        match ABft.pushChildren g.hier g.hier.loopFuel (some 1) [.incrementDepth] with
        | .error e => .error e
        | .ok q => .ok (some (0, 0), ⟨q, 0⟩) := by
    intro g hn A
    have hn' : g.hier.neighbors 0 = some (starNode n 0) := by
      unfold Hier.neighbors; rw [hn, star_nbr (Nat.zero_le _)]; simp [starNode_alive]
    have hn0 : n ≠ 0 := by omega
    have hf : (starNode n 0).firstChild = .ok (some 1) := by
      simp [Neighbors.firstChild, starNode, hn0]
      rfl
    simp only [Mach.abftNext, Mach.abftLoop, hn', expect_some, hf]
    rfl
  let g : Forest Nat := ⟨⟨(star n).hier.nbrs.set i Neighbors.removed⟩, (star n).data⟩
  have hg : ∀ x, x ≠ i → g.hier.nbrs[x]? = (star n).hier.nbrs[x]? := fun x hx => List.getElem?_set_ne (Ne.symm hx)
  have hgi : g.hier.nbrs[i]? = some Neighbors.removed := List.getElem?_set_self (by simp [star]; omega)
  have key := hL g fun x hx => ⟨hg x fun e => h3 (e ▸ hx), rfl⟩
  obtain ⟨q, hq⟩ := star_push n (star n).hier.loopFuel 1 [.incrementDepth] (by omega) (by omega) (by simp [Hier.loopFuel, star]; omega)
  obtain ⟨e, he⟩ := star_push_cut hg hgi g.hier.loopFuel 1 [.incrementDepth] (by omega) h1 h2
  have h0 : g.hier.nbrs[0]? = (star n).hier.nbrs[0]? := hg 0 (by omega)
  have ha : (star n).isAlive 0 = true := by simp [Forest.isAlive, star]
  have r1 : (Build.exec .debug 100 um (star n) (.abft 0 1)).2 = .levels [some (0, 0)] := by
    simp [Build.exec, Req.iterate1, hstart (star n) rfl rfl, pull, Mach.allocatingNext, hnext (star n) rfl, hq, Forest.emit,
      Forest.nodeAt, Forest.node, ha, Ans.ofR]
  have r2 : (Build.exec .debug 100 um g (.abft 0 1)).2 = .ofFail e := by
    simp [Build.exec, Req.iterate1, hstart g rfl h0, pull, Mach.allocatingNext, hnext g h0, he, Forest.emit, Ans.ofR]
  rw [r1, r2] at key
  cases e <;> cases key

/-- A chain: node 0 is the root, each node but the last has the next one as its only child. -/
def chainNode (n i : Nat) : Neighbors := ⟨if i = 0 then none else some (i - 1), some i, none, if i < n then some (i + 1) else none⟩
def chain (n : Nat) : Forest Nat := ⟨⟨(List.range (n + 1)).map (chainNode n)⟩, (List.range (n + 1)).map some⟩
example : chain 3 = Op.run 100 Forest.new [.createRoot 0, .createInsert 1 (.lastChildOf 0), .createInsert 2 (.lastChildOf 1),
  .createInsert 3 (.lastChildOf 2)] := by decide +kernel

theorem chain_nbr {n i : Nat} (h : i ≤ n) : (chain n).hier.nbrs[i]? = some (chainNode n i) := by
  have : i < n + 1 := by omega
  simp [chain, this]
theorem chain_neighbors {n i : Nat} (h : i ≤ n) : (chain n).hier.neighbors i = some (chainNode n i) := by
  unfold Hier.neighbors
  rw [chain_nbr h]
  rfl

/-- The way up from `c` in the whole chain … -/
theorem chain_meets (n : Nat) : ∀ (c fuel : Nat), c ≤ n → c < fuel → Hier.ancestorsMeet (chain n).hier 0 fuel (some c) = .ok true
  | c, 0, _, h => absurd h (by omega)
  | 0, fuel + 1, h, _ => by
    unfold Hier.ancestorsMeet
    rw [anc_next_some, chain_neighbors h]
    rfl
  | c + 1, fuel + 1, h, h' => by
    unfold Hier.ancestorsMeet
    rw [anc_next_some, chain_neighbors h]
    simpa [chainNode] using chain_meets n c fuel (by omega) (by omega)
/-- … and with node `i` removed. -/
theorem chain_cut {n i : Nat} {g : Hier} (hg : ∀ x, x ≠ i → g.nbrs[x]? = (chain n).hier.nbrs[x]?) (hi : g.nbrs[i]? = some Neighbors.removed)
    (h0 : 1 ≤ i) : ∀ (c fuel : Nat), c ≤ n → i ≤ c → ∃ e, Hier.ancestorsMeet g 0 fuel (some c) = .error e
  | c, 0, _, _ => ⟨_, rfl⟩
  | 0, fuel + 1, h, h' => absurd h' (by omega)
  | c + 1, fuel + 1, h, h' => by
    unfold Hier.ancestorsMeet
    rw [anc_next_some]
    by_cases hc : c + 1 = i
    · have : g.neighbors (c + 1) = none := by unfold Hier.neighbors; rw [hc, hi]; rfl
      rw [this]
      exact ⟨_, rfl⟩
    · have : g.neighbors (c + 1) = some (chainNode n (c + 1)) := by
        unfold Hier.neighbors; rw [hg _ hc, chain_nbr h]; rfl
      rw [this]
      simpa [chainNode] using chain_cut hg hi h0 c fuel (by omega) (by omega)

/-- No constant bounds `insert`: with a destination that has `n` ancestors it depends on more than `k` slots for every `k + 1 < n`. -/
theorem C92_insert_is_not_bounded (b : Build) (cap um k n : Nat) (h : k + 1 < n) :
    ¬ ∃ L : List Nat, L.length ≤ k ∧ ∀ g : Forest Nat, AgreeAt L (chain n) g →
      (b.exec cap um g (.insert 0 (.lastChildOf n))).2 = (b.exec cap um (chain n) (.insert 0 (.lastChildOf n))).2 := by
  rintro ⟨L, hl, hL⟩
  obtain ⟨i, h1, h2, h3⟩ := exists_missing (n - 1) L (by omega)
  let g : Forest Nat := ⟨⟨(chain n).hier.nbrs.set i Neighbors.removed⟩, (chain n).data⟩
  have hg : ∀ x, x ≠ i → g.hier.nbrs[x]? = (chain n).hier.nbrs[x]? := fun x hx => List.getElem?_set_ne (Ne.symm hx)
  have hgi : g.hier.nbrs[i]? = some Neighbors.removed := List.getElem?_set_self (by simp [chain]; omega)
  have key := hL g fun x hx => ⟨hg x fun e => h3 (e ▸ hx), rfl⟩
  have gn : g.hier.neighbors n = some (chainNode n n) := by unfold Hier.neighbors; rw [hg n (by omega), chain_nbr (Nat.le_refl _)]; rfl
  have g0 : g.hier.neighbors 0 = some (chainNode n 0) := by unfold Hier.neighbors; rw [hg 0 (by omega), chain_nbr (by omega)]; rfl
  have alive : ∀ (h : Hier) (x : Nat) nb, h.neighbors x = some nb → h.isAlive x = true := by
    intro h x nb e
    unfold Hier.neighbors at e
    unfold Hier.isAlive
    cases hx : h.nbrs[x]? with
    | none => rw [hx] at e; cases e
    | some v =>
      rw [hx] at e
      rw [Option.filter_some] at e
      split at e
      · assumption
      · cases e
  have lc : ∀ g : Hier, (chainNode n n).lastChild g = .ok none := by
    intro g; simp [chainNode, Neighbors.lastChild, Neighbors.firstLastChild, Neighbors.isAlive, Neighbors.firstChild]
  have run : ∀ g : Forest Nat, g.hier.neighbors n = some (chainNode n n) → g.hier.neighbors 0 = some (chainNode n 0) →
      (b.exec cap um g (.insert 0 (.lastChildOf n))).2 =
        match Hier.ancestorsMeet g.hier 0 g.hier.loopFuel (some n) with
        | .error e => .ofFail e
        | .ok true => .err .ancestorDescendantLoop
        | .ok false => (b.exec cap um g (.insert 0 (.lastChildOf n))).2 := by
    intro g gn g0
    have a0 := alive _ _ _ g0
    have an := alive _ _ _ gn
    cases hv : Hier.ancestorsMeet g.hier 0 g.hier.loopFuel (some n) with
    | error e =>
      simp [Build.exec, Req.exec, Forest.insert, Forest.onHier, M.zoom, Hier.insert, Hier.appendChild, Hier.nbrOf, M.run_bind, M.read, gn, expect,
        lc, Hier.rangeSingle, a0, Hier.transplant, Hier.wouldMakeCyclicLinks, g0, Ancestors.withStart, an, hv, Ans.ofRes]
    | ok c =>
      cases c with
      | false => rfl
      | true =>
        simp [Build.exec, Req.exec, Forest.insert, Forest.onHier, M.zoom, Hier.insert, Hier.appendChild, Hier.nbrOf, M.run_bind, M.read, gn, expect,
          lc, Hier.rangeSingle, a0, Hier.transplant, Hier.wouldMakeCyclicLinks, g0, Ancestors.withStart, an, hv, Ans.ofRes, Ans.ofExcept]
  rw [run _ (chain_neighbors (Nat.le_refl _)) (chain_neighbors (Nat.zero_le _)), run g gn g0] at key
  obtain ⟨e, he⟩ := chain_cut hg hgi h1 n g.hier.loopFuel (Nat.le_refl _) (by omega)
  rw [chain_meets n n _ (Nat.le_refl _) (by simp [Hier.loopFuel, chain]; omega), he] at key
  cases e <;> cases key

/-! ### The hypotheses can be met -/

section
/-- The way up can be followed by computation. -/
instance topWithinDecidable (f : Forest T) : ∀ n x, Decidable (f.TopWithin n x)
  | 0, _ => .isFalse id
  | n + 1, x =>
    match h : (f.hier.neighbors x).bind Neighbors.parent with
    | none => .isTrue fun p hp => by rw [h] at hp; cases hp
    | some q =>
      haveI := topWithinDecidable f n q
      decidable_of_iff (f.TopWithin n q) ⟨fun e p hp => by rw [h] at hp; cases hp; exact e, fun e => e q h⟩
/-- `C92_look_ups`: the last child, in the sample forest and in a destroyed one. -/
example := C92_look_ups .debug 100 255 Sample.built (.link 0 .lastChild) rfl
example := C92_look_ups .release 100 255 (Op.run 100 Forest.new carousel) (.dft 1 [.front, .front, .back]) rfl
/-- `C92_start`, `C92_next`: an iterator over following siblings. -/
example := C92_start 255 Sample.built (.row 2 .following) fun _ => ⟨nofun, nofun⟩
example := C92_next .release 255 (Op.run 100 Forest.new carousel) (it := .dft (some (.opn 1, .cls 1))) trivial
/-- `C92_clients`: a client that walks to the root. -/
example (n : Nat) := C92_clients .debug 100 255 Sample.built
  (client := fun seen => match seen.getLast? with
    | some (.call (.link (some x))) => .call (.link x .parent)
    | _ => .call (.link 3 .parent)) (k := 1)
  (fun seen => ⟨1, by split <;> rfl, Nat.le_refl _⟩) n
/-- `C92_insert`: a loop-free and a damaged tree. -/
example := C92_insert .debug 100 255 (chain 3) 0 (.lastChildOf 2) (n := 3) (by decide)
example := C92_insert .release 100 255 (Op.run 100 Forest.new carousel) 0 (.lastChildOf 2) (n := 3) (by decide)
example : Touches 30 Sample.built fun g => Build.debug.exec 100 255 g (.insert 0 (.lastChildOf 5)) :=
  C92_insert_reachable Sample.models .debug 100 255 0 (.lastChildOf 5) (up := [5, 2, 0]) rfl (.step (p := 2) rfl (.step (p := 0) rfl (.root rfl)))
example := C92_adopt .release 100 255 (chain 3) 2 0 .nextSibling (n := 3) (by decide)
example := C92_create_root .debug 100 255 (chain 3) 9 rfl
example := C92_create_insert .release 100 255 (chain 3) 9 (.nextSiblingOf 2) (n := 3) (by decide)
example := C92_node_create .debug 100 255 (chain 3) 2 9 .firstChild (n := 3) (by decide)
/-- `C92_writers`: a client that detaches the first child of node 0 until there is none. -/
example (n : Nat) := C92_writers .release 100 255 Sample.built
  (client := fun seen => match seen.getLast? with
    | some (.link (some x)) => .detach x
    | _ => .link 0 .firstChild) (k := 9)
  (fun seen => by
    show ∃ m, Req.cost _ = some m ∧ m ≤ 9
    split <;> exact ⟨_, rfl, by decide⟩) n
/-- `C92_detach_single`: node 2, which has a parent and children, and a root. -/
example : Touches 42 Sample.built fun g => Build.debug.exec 100 255 g (.detachSingle 2) :=
  C92_detach_single Sample.models .debug 100 255 2 (p := 0) (up := [0]) rfl (by decide) (.root rfl)
example := C92_detach_single_simple Sample.models .release 100 255 0 (.inr rfl)
/-- A tree whose way up never ends. -/
example : ¬ (Op.run 100 Forest.new upRing).TopWithin 50 0 := by decide +kernel
/-- `C92_insert_is_not_bounded`: a destination with eight ancestors. -/
example := C92_insert_is_not_bounded .debug 100 255 6 8 (by decide)
/-- `C92_allocating_is_not_bounded`: five children, four slots. -/
example := C92_allocating_is_not_bounded 255 4 5 (by decide)
end

end Treena
