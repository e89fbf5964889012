import Verif.HeapMemoryOps

/-!
# C110: the memory of the queue of candidates

`Verif/Spec/HeapMemory.lean` says what a history of calls means; `Verif/HeapMemory.lean` is the code.
-/

namespace Nip.Props

open Nip Res Spec

/-- From this pointer on there is a linked list with these numbers. -/
def NumbersFrom (m : QueueMemory) : MemPtr → List Nat → Prop
  | p, [] => p = .null
  | p, d :: l => ∃ k : IntLink, m.get p = ok (.link k) ∧ k.data = d ∧ NumbersFrom m k.fwd l

/-- In memory there is this queue: its structure, an array with pointers to its items and NULL in the rest of its room, and a list of the noted replacements. -/
def QueueIn (m : QueueMemory) (p : MemPtr) (h : Heap Nat) : Prop :=
  ∃ c slots list, m.get p = ok (.heap c) ∧ m.get c.items = ok (.slots slots) ∧ m.get c.updated = ok (.list list) ∧
    c.allocated = h.allocated ∧ c.size = h.items.length ∧ c.heapified = h.heapified ∧ slots.length = h.allocated ∧
    (∀ (i : Nat) x, h.items[i]? = some x → ∃ q, slots[i]? = some q ∧ m.get q = ok (.item x)) ∧ (∀ i : Nat, h.items.length ≤ i → i < h.allocated → slots[i]? = some .null) ∧
    list.length = h.updated.length ∧ NumbersFrom m list.first h.updated

theorem get_queue {m : QueueMemory} {a : Nat} {b : QueueBlock} (h : m.blocks a = some b) : m.get (.block a) = ok b := by
  unfold Store.get
  simp only [h]

theorem numbers_from {m : QueueMemory} {a : Nat} {ls : List NLink} (h : IntsIn m a ls) (d : Nat) : ∀ j, ls.length = j + d → NumbersFrom m (nlinkPtr ls j) ((ls.drop j).map NLink.textAt) := by
  induction d with
  | zero =>
    intro j hj
    rw [List.drop_of_length_le (by omega)]
    exact nlinkPtr_ge (by omega)
  | succ d ih =>
    intro j hj
    have hjl : j < ls.length := by omega
    rw [List.drop_eq_getElem_cons hjl, List.map_cons, nlinkPtr_lt hjl]
    exact ⟨_, get_queue (h.link j hjl), rfl, ih (j + 1) (by omega)⟩

theorem queue_in {m : QueueMemory} {e : QEntry} {H : Heap (Nat × Nat)} (h : QGood m e H) : QueueIn m (.block e.addr) (bareHeap H) := by
  refine ⟨_, _, _, get_queue h.cell, get_queue h.slots, get_queue h.ints.head, rfl, by simp [bareHeap], rfl, ?_, ?_, ?_, ?_, ?_⟩
  · have := h.room
    simp only [List.length_append, slotPtrs_length, List.length_replicate, bareHeap]
    omega
  · intro i x hx
    simp only [bareHeap, List.getElem?_map, Option.map_eq_some_iff] at hx
    obtain ⟨y, hy, rfl⟩ := hx
    obtain ⟨hi, rfl⟩ := List.getElem?_eq_some_iff.mp hy
    exact ⟨_, slotPtrs_get hi, get_queue (h.items _ (List.getElem_mem hi))⟩
  · intro i hi hi2
    simp only [bareHeap, List.length_map] at hi hi2
    rw [List.getElem?_append_right (by rw [slotPtrs_length]; exact hi), slotPtrs_length, List.getElem?_replicate, if_pos (by omega)]
  · simp [bareHeap, h.noted]
  · have := numbers_from h.ints _ 0 (Nat.zero_add _).symm
    simpa [bareHeap, h.noted] using this

theorem queue_blocks (e : QEntry) (l : List TItem) : (e.blocks l).card = 3 + l.length + e.links.length := by
  have hl : (ptrBlocks (linkPtrs e.links)).card = e.links.length := by
    rw [ptrBlocks_card (by intro q hq; obtain ⟨x, _, rfl⟩ := List.mem_map.mp hq; exact ⟨_, rfl⟩)]
    simp [linkPtrs]
  unfold QEntry.blocks intsBlocks
  simp only [Multiset.card_add, Multiset.card_singleton, hl, slotPtrs_card]
  omega

/-- Any allocations fail, in any memory.  Either the queue is not created, because one of its three allocations failed, and the memory is as before.  Or it is created empty; then every history of calls in
which there are never more candidates than it was created for runs without undefined behaviour, and answers as on the queue of C13 when some calls have no memory (none of them if no allocation
fails): afterwards the memory holds the queue of C13; three blocks, one for each candidate and one for each noted replacement are in use; nothing else has changed; and freeing the queue gives the memory from
before. -/
theorem C110_memory (ptr : Nat) (pk sk : Nat → Int) (n : Nat) (hn : 0 < n) (m : QueueMemory) (hm : ∀ b, m.next ≤ b → m.blocks b = none) :
    (∃ m', m.newQueue n = ok (.null, m') ∧ m'.blocks = m.blocks ∧ ∃ k < 3, m.fails (m.next + k) = true) ∨
    (∃ p m1, m.newQueue n = ok (p, m1) ∧ p ≠ .null ∧ QueueIn m1 p (emptyQueue n) ∧
      ∀ calls, Fits n 0 calls → ∃ memory : List Bool, memory.length = calls.length ∧ ((∀ k, m.fails k = false) → ∀ b ∈ memory, b = true) ∧
        ∃ answers h m2, Store.queueCalls ptr pk sk p m1 calls = ok (answers, m2) ∧ replay pk sk (emptyQueue n) (calls.zip memory) = ok (answers, h) ∧ QueueIn m2 p h ∧
          m2.inUse = m.inUse + 3 + h.items.length + h.updated.length ∧ (∀ b x, m.blocks b = some x → m2.blocks b = some x) ∧
          ∃ m3, m2.freeQueue p = ok m3 ∧ m3.blocks = m.blocks) := by
  obtain ⟨M, hw⟩ : ∃ M, m.Within M := ⟨_, Store.within_used hm⟩
  rcases newQueue_spec hw hn with ⟨m1, a1, f1, w1, k1⟩ | ⟨m1, e, a1, w1, k1, g1⟩
  · exact Or.inl ⟨m1, a1, k1.same.all hw w1, f1⟩
  · refine Or.inr ⟨_, m1, a1, by simp, queue_in g1, fun calls hf => ?_⟩
    obtain ⟨bs, xs, e', H', m2, l2, f2, a2, p2, ea, w2, k2, g2, al2⟩ := queueCalls_spec ptr pk sk calls (H := { items := [], allocated := n, bytes := 0, heapified := false, updated := [] }) w1 g1 hf
    obtain ⟨m3, a3, w3, k3⟩ := freeQueue_spec w2 g2
    refine ⟨bs, l2, fun hk => f2 (fun k => by rw [k1.fails]; exact hk k), xs, bareHeap H', m2, a2, p2, by rw [← ea]; exact queue_in g2, ?_, ?_, m3, by rw [← ea]; exact a3, ?_⟩
    · rw [w2.count, hw.count, Multiset.card_add, queue_blocks]
      simp only [bareHeap, List.length_map, g2.noted]
      omega
    · intro b x hb
      rw [(k1.trans k2).same b ((hw.used b).mp (by rw [hb]; simp)), hb]
    · exact ((k1.trans k2).trans k3).same.all hw w3

/-- A queue that is in memory after a history, with all that the memory lemmas need. -/
theorem queue_reached {ptr : Nat} {pk sk : Nat → Int} {n : Nat} (hn : 0 < n) {m : QueueMemory} (hm : ∀ b, m.next ≤ b → m.blocks b = none) {p : MemPtr} {m1 : QueueMemory} (h1 : m.newQueue n = ok (p, m1))
    (hp : p ≠ .null) {calls : List QueueCall} (hf : Fits n 0 calls) {answers : List QueueAnswer} {m2 : QueueMemory} (h2 : Store.queueCalls ptr pk sk p m1 calls = ok (answers, m2)) :
    ∃ e H M, p = .block e.addr ∧ m.Within M ∧ m2.Within (e.blocks H.items + M) ∧ m.Keeps m2 M ∧ QGood m2 e H ∧ H.allocated = n := by
  obtain ⟨M, hw⟩ : ∃ M, m.Within M := ⟨_, Store.within_used hm⟩
  rcases newQueue_spec hw hn with ⟨m1', a1, f1, w1, k1⟩ | ⟨m1', e, a1, w1, k1, g1⟩
  · rw [a1] at h1
    cases h1
    exact absurd rfl hp
  · rw [a1] at h1
    cases h1
    obtain ⟨bs, xs, e', H', m2', l2, f2, a2, p2, ea, w2, k2, g2, al2⟩ := queueCalls_spec ptr pk sk calls (H := { items := [], allocated := n, bytes := 0, heapified := false, updated := [] }) w1 g1 hf
    rw [a2] at h2
    cases h2
    exact ⟨e', H', M, by rw [ea], hw, w2, k1.trans k2, g2, al2⟩

/-- A candidate is inserted into a full queue after any history; a pointer has at least two bytes.  If there is no memory for the item, this is reported and nothing has changed.  If there is, but the queue
cannot grow, this is reported, and one block stays in use even when the queue is freed.  If it can grow, the behaviour is undefined. -/
theorem C110_full (ptr : Nat) (hptr : 2 ≤ ptr) (pk sk : Nat → Int) (n : Nat) (hn : 0 < n) (m : QueueMemory) (hm : ∀ b, m.next ≤ b → m.blocks b = none) (p : MemPtr) (m1 : QueueMemory)
    (h1 : m.newQueue n = ok (p, m1)) (hp : p ≠ .null) (calls : List QueueCall) (hf : Fits n 0 calls) (answers : List QueueAnswer) (m2 : QueueMemory)
    (h2 : Store.queueCalls ptr pk sk p m1 calls = ok (answers, m2)) (hfull : ∃ h, QueueIn m2 p h ∧ h.items.length = n) (c : Nat) :
    (m2.fails m2.next = true → ∃ m3, Store.insertQueue ptr pk sk m2 p c = ok (ENOMEM, m3) ∧ m3.blocks = m2.blocks) ∧
    (m2.fails m2.next = false → m2.fails (m2.next + 1) = true → ∃ m3 m4, Store.insertQueue ptr pk sk m2 p c = ok (ENOMEM, m3) ∧ m3.freeQueue p = ok m4 ∧ m4.inUse = m.inUse + 1) ∧
    (m2.fails m2.next = false → m2.fails (m2.next + 1) = false → Store.insertQueue ptr pk sk m2 p c = ub) := by
  obtain ⟨e, H, M, rfl, hw, w2, k2, g2, al⟩ := queue_reached hn hm h1 hp hf h2
  have hlen : H.items.length = n := by
    obtain ⟨h, ⟨c', _, _, e1, _, _, _, e2, _⟩, e3⟩ := hfull
    rw [get_queue g2.cell] at e1
    cases e1
    rw [← e3, ← e2]
  rcases insertQueue_full w2 g2 (by rw [hlen, al]) (by rw [al]; exact hn) hptr pk sk c with ⟨m3, a3, f3, w3, k3⟩ | ⟨m3, a3, f3, f4, w3, k3⟩ | ⟨a3, f3, f4⟩
  · refine ⟨fun _ => ⟨m3, a3, k3.same.all w2 w3⟩, fun h => ?_, fun h => ?_⟩ <;> (rw [h] at f3; cases f3)
  · refine ⟨fun h => by (rw [h] at f3; cases f3), fun _ _ => ?_, fun _ h => by (rw [h] at f4; cases f4)⟩
    have g3 : QGood m3 e H := g2.keep (k3.same.mono (Multiset.le_add_right _ _))
    obtain ⟨m4, a4, w4, k4⟩ := freeQueue_spec (m := m3) (M := {m2.next} + M) (w3.as (by ac_rfl)) g3
    refine ⟨m3, m4, a3, a4, ?_⟩
    rw [w4.count, hw.count, Multiset.card_add, Multiset.card_singleton]
    omega
  · exact ⟨fun h => by (rw [h] at f3; cases f3), fun _ h => by (rw [h] at f4; cases f4), fun _ _ => a3⟩

/-- The queue was built after any history and nothing was replaced since; the first candidate is replaced, but there is no memory to note this.  The replacement succeeds, and after the queue has
been built again the new candidate comes out, however large its cost is. -/
theorem C110_update_lost (ptr : Nat) (pk sk : Nat → Int) (n : Nat) (hn : 0 < n) (m : QueueMemory) (hm : ∀ b, m.next ≤ b → m.blocks b = none) (p : MemPtr) (m1 : QueueMemory)
    (h1 : m.newQueue n = ok (p, m1)) (hp : p ≠ .null) (calls : List QueueCall) (hf : Fits n 0 calls) (answers : List QueueAnswer) (m2 : QueueMemory)
    (h2 : Store.queueCalls ptr pk sk p m1 calls = ok (answers, m2)) (h : Heap Nat) (hq : QueueIn m2 p h) (hh : h.heapified = true) (hu : h.updated = []) (h0 : 0 < h.items.length)
    (c : Nat) (hfail : m2.fails m2.next = true) :
    ∃ m3, Store.queueCalls ptr pk sk p m2 [.set 0 c, .build, .extract] = ok ([.code 0, .code 0, .candidate (some c)], m3) := by
  obtain ⟨e, H, M, rfl, hw, w2, k2, g2, al⟩ := queue_reached hn hm h1 hp hf h2
  obtain ⟨c', sl, li, e1, e2, e3, e4, e5, e6, e7, e8, _, e9, _⟩ := hq
  rw [get_queue g2.cell] at e1
  cases e1
  simp only at e3 e5 e6
  rw [get_queue g2.ints.head] at e3
  cases e3
  have hil : 0 < H.items.length := by omega
  obtain ⟨m3, ls, b, a3, f3, w3, k3, g3⟩ := setQueue_spec w2 g2 pk sk 0 c hil
  have hb : b = false := by
    rw [hfail] at f3
    cases b
    · rfl
    · cases f3
  subst hb
  obtain ⟨H', m4, p4, a4, w4, k4, g4, al4, len4⟩ := buildQueue_spec (e := { e with links := ls })
    (H := { H with items := H.items.set 0 { content := (H.items[0].content.1, c), primary := pk c, secondary := sk c }, updated := if false then H.updated ++ [0] else H.updated }) w3 g3
  have hnil : e.links = [] := by
    rw [hu] at e9
    exact List.length_eq_zero_iff.mp e9
  have hupd : H.updated = [] := by rw [g2.noted, hnil]; rfl
  have hitems : H'.items = H.items.set 0 { content := (H.items[0].content.1, c), primary := pk c, secondary := sk c } := by
    unfold Heap.build at p4
    simp only [e6.trans hh, Bool.not_true, Bool.false_eq_true, if_false, hupd, List.foldlM_nil] at p4
    cases p4
    rfl
  have hpos : 0 < H'.items.length := by rw [len4]; simp only [List.length_set]; omega
  have h00 : H'.items[0].content.2 = c := by
    simp only [hitems, List.getElem_set_self]
  obtain ⟨cc, H'', m5, p5, a5, _⟩ := extractQueue_spec w4 g4
  obtain ⟨H3, q5, _⟩ := Heap.extractMin_perm H' hpos
  rw [q5] at p5
  cases p5
  refine ⟨m5, ?_⟩
  unfold Store.queueCalls Store.queueCalls Store.queueCalls Store.queueCalls Store.queueCall
  simp only
  rw [a3, ok_bind]
  simp only [ok_bind]
  rw [a4]
  simp only [ok_bind]
  rw [a5]
  simp only [ok_bind, Option.map_some, h00]

/-- A run in memory with a block in use: three candidates with costs 30, 10 and 20 are inserted, the queue is built, the first candidate is replaced by one with cost 25, the queue is built and the
first candidate is taken out. -/
def queueExample : List QueueCall := [.insert 30, .insert 10, .insert 20, .build, .set 0 25, .build, .extract]

/-- a memory with one block in use -/
def usedMemory (fails : Nat → Bool) : QueueMemory := { blocks := fun b => if b = 0 then some (.list { length := 0, first := .null, last := .null }) else none, next := 1, fails := fails }

theorem usedMemory_ok (fails : Nat → Bool) : ∀ b, (usedMemory fails).next ≤ b → (usedMemory fails).blocks b = none := by
  intro b hb
  have : b ≠ 0 := by simp only [usedMemory] at hb; omega
  simp [usedMemory, this]

/-- the answers of a run from the creation on, and the number of blocks in use after it -/
def queueRun (fails : Nat → Bool) (n : Nat) (calls : List QueueCall) : Res (List QueueAnswer × Nat) := do
  let (p, m) ← (usedMemory fails).newQueue n
  let (x, m) ← Store.queueCalls 8 (fun c => c) (fun _ => 0) p m calls
  ok (x, m.inUse)

/-- There are never more than three candidates. -/
example : Fits 3 0 queueExample := by unfold queueExample Fits; simp [Fits]

/-- Without failures the candidate with cost 20 comes out; one block from before, three for the queue and two candidates are in use. -/
example : queueRun (fun _ => false) 3 queueExample = ok ([.code 0, .code 0, .code 0, .code 0, .code 0, .code 0, .candidate (some 20)], 6) := by decide +kernel

/-- Without memory for the third candidate, this is reported, and it is not in the queue. -/
example : queueRun (fun k => k == 6) 3 queueExample = ok ([.code 0, .code 0, .code ENOMEM, .code 0, .code 0, .code 0, .candidate (some 25)], 5) := by decide +kernel

/-- Without memory to note the replacement, the candidate with cost 25 comes out though there is one with cost 20 (as `C110_update_lost` says). -/
example : queueRun (fun k => k == 7) 3 queueExample = ok ([.code 0, .code 0, .code 0, .code 0, .code 0, .code 0, .candidate (some 25)], 6) := by decide +kernel

/-- Before that replacement the queue is built, nothing is noted, there are three candidates, and the next allocation is the one that fails. -/
example : (do
    let (p, m) ← (usedMemory (fun k => k == 7)).newQueue 3
    let (_, m) ← Store.queueCalls 8 (fun c => c) (fun _ => 0) p m (queueExample.take 4)
    let c ← m.queueAt p
    let l ← m.intListAt c.updated
    ok (c.heapified, l.length, c.size, c.allocated, m.fails m.next)) = ok (true, 0, 3, 3, true) := by decide +kernel

/-- A queue for two candidates is full after two insertions: a third one is undefined if there is memory, and reported if there is none. -/
example : queueRun (fun _ => false) 2 [.insert 3, .insert 4, .insert 5] = ub ∧ queueRun (fun k => k == 6) 2 [.insert 3, .insert 4, .insert 5] = ok ([.code 0, .code 0, .code ENOMEM], 6) ∧
    queueRun (fun k => k == 7) 2 [.insert 3, .insert 4, .insert 5] = ok ([.code 0, .code 0, .code ENOMEM], 7) := by decide +kernel

end Nip.Props
