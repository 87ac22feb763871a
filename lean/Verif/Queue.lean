import Verif.Arith

/-
Model of the ring buffer used for the request and event queues, `dex/src/state.rs` 751-869.
-/

namespace Serum

/-- `Queue` with an `EventQueueHeader`, `state.rs` 763-766 and 1099-1106. The account slice is a
`List`. `RequestQueueHeader` differs only in ignoring `seq` (897-900) and carrying
`next_seq_num` (877), which lives in `Verif.OrderId`. -/
structure Queue (α : Type) where
  head : Nat
  count : Nat
  seq : Nat
  buf : List α
  deriving DecidableEq, Repr

namespace Queue
variable {α : Type}

/-- `Queue::full`, `state.rs` 779. -/
def full (q : Queue α) : Bool := q.count == q.buf.length

/-- `Queue::empty`, `state.rs` 784. -/
def empty (q : Queue α) : Bool := q.count == 0

/-- `Queue::push_back`, `state.rs` 789-801; `none` stands for `Err(value)`. The slot index is in
range whenever the queue is not full and non-empty, so the Rust indexing cannot panic there; it
would for `buf.len() == 0`, but then the queue is full. -/
def pushBack (q : Queue α) (x : α) : Option (Queue α) :=
  if q.full then none
  else
    let slot := wadd q.head q.count % q.buf.length
    some { q with buf := q.buf.set slot x, count := wadd q.count 1, seq := wadd q.seq 1 }

/-- `Queue::peek_front`, `state.rs` 804-809. -/
def peekFront (q : Queue α) : Option α :=
  if q.empty then none else q.buf[q.head]?

/-- `Queue::pop_front`, `state.rs` 820-833. -/
def popFront (q : Queue α) : Option (α × Queue α) :=
  if q.empty then none
  else match q.buf[q.head]? with
    | none => none
    | some x =>
      some (x, { q with count := wsub q.count 1, head := wadd q.head 1 % q.buf.length })

/-- `Queue::revert_pushes`, `state.rs` 836-842; `none` stands for the assertion error. -/
def revertPushes (q : Queue α) (desiredLen : Nat) : Option (Queue α) :=
  if desiredLen ≤ q.count then
    some { q with count := desiredLen, seq := wsub q.seq (q.count - desiredLen) }
  else none

/-- `QueueIterator::next` run to the end from `index`, `state.rs` 857-868. -/
def iterFrom (q : Queue α) (index : Nat) : Nat → List α
  | 0 => []
  | fuel + 1 =>
    if index == q.count then []
    else match q.buf[wadd q.head index % q.buf.length]? with
      | none => []
      | some x => x :: iterFrom q (index + 1) fuel

/-- `Queue::iter().collect()`, `state.rs` 844. -/
def iter (q : Queue α) : List α := iterFrom q 0 (q.count + 1)

/-- Representation invariant of the ring buffer. Solana accounts are at most 10 MiB, so the length
bound is met by every real account. -/
structure WF (q : Queue α) : Prop where
  len : q.buf.length < W64 / 2
  count : q.count ≤ q.buf.length
  head : 0 < q.buf.length → q.head < q.buf.length
  seq : q.seq < W64

/-- The stored items, oldest first. -/
def toList (q : Queue α) : List α :=
  (q.buf.drop q.head ++ q.buf.take q.head).take q.count

theorem length_toList {q : Queue α} (h : q.WF) : q.toList.length = q.count := by
  have := h.count; have := h.head
  simp [toList]; omega

theorem getElem?_toList {q : Queue α} (h : q.WF) {i : Nat} (hi : i < q.count) :
    q.toList[i]? = q.buf[wadd q.head i % q.buf.length]? := by
  have h1 := h.count; have h2 := h.head (by omega); have h3 := h.len
  unfold wadd
  rw [Nat.mod_eq_of_lt (a := q.head + i) (by unfold W64 at *; omega)]
  unfold toList
  rw [List.getElem?_take_of_lt hi, List.getElem?_append]
  simp only [List.length_drop, List.getElem?_drop]
  split
  · rename_i hlt
    rw [Nat.mod_eq_of_lt (by omega)]
  · rename_i hge
    rw [Nat.mod_eq_sub_mod (by omega), Nat.mod_eq_of_lt (by omega),
      List.getElem?_take_of_lt (by omega)]
    congr 1; omega

theorem mod_idx {h i n : Nat} (hh : h < n) (hi : i < n) (hn : n < W64 / 2) :
    wadd h i % n = if h + i < n then h + i else h + i - n := by
  unfold wadd
  rw [Nat.mod_eq_of_lt (a := h + i) (by unfold W64 at *; omega)]
  split
  · exact Nat.mod_eq_of_lt ‹_›
  · rw [Nat.mod_eq_sub_mod (by omega), Nat.mod_eq_of_lt (by omega)]

theorem empty_iff {q : Queue α} (h : q.WF) : q.empty = true ↔ q.toList = [] := by
  rw [← List.length_eq_zero_iff, length_toList h]; simp [empty]

theorem full_iff {q : Queue α} (h : q.WF) : q.full = true ↔ q.toList.length = q.buf.length := by
  rw [length_toList h]; simp [full]

theorem pushBack_none {q : Queue α} (h : q.WF) {x : α} :
    q.pushBack x = none ↔ q.toList.length = q.buf.length := by
  rw [← full_iff h]; unfold pushBack; split <;> simp_all

theorem pushBack_spec {q q' : Queue α} (h : q.WF) {x : α} (hp : q.pushBack x = some q') :
    q'.WF ∧ q'.toList = q.toList ++ [x] ∧ q'.buf.length = q.buf.length ∧ q'.seq = wadd q.seq 1 := by
  unfold pushBack at hp
  split at hp
  · cases hp
  rename_i hf
  have hcount := h.count
  have hlen := h.len
  have hc : q.count < q.buf.length := by
    have : q.count ≠ q.buf.length := by simpa [full] using hf
    omega
  have hh := h.head (by omega)
  have hcnt : wadd q.count 1 = q.count + 1 := wadd_eq (by unfold W64 at *; omega)
  injection hp with hp
  subst hp
  have hwf : WF { q with buf := q.buf.set (wadd q.head q.count % q.buf.length) x,
                         count := wadd q.count 1, seq := wadd q.seq 1 } := by
    constructor <;> simp [hcnt] <;> first | omega | exact fun _ => hh | exact wadd_lt _ _
  refine ⟨hwf, ?_, by simp, rfl⟩
  apply List.ext_getElem?
  intro i
  by_cases hi : i < q.count + 1
  · rw [getElem?_toList hwf (by simpa [hcnt] using hi)]
    simp only [List.length_set]
    have e1 := mod_idx hh hc hlen
    have e2 := mod_idx hh (i := i) (by omega) hlen
    rw [List.getElem?_append, length_toList h]
    by_cases hi2 : i < q.count
    · rw [if_pos hi2, getElem?_toList h hi2, List.getElem?_set_ne]
      rw [e1, e2]
      split <;> split <;> omega
    · have : i = q.count := by omega
      subst this
      rw [if_neg (by omega), List.getElem?_set_self (Nat.mod_lt _ (by omega))]
      simp
  · rw [List.getElem?_eq_none (by rw [length_toList hwf]; simp [hcnt]; omega),
      List.getElem?_eq_none (by simp [length_toList h]; omega)]

theorem peekFront_eq {q : Queue α} (h : q.WF) : q.peekFront = q.toList.head? := by
  unfold peekFront
  split
  · rw [(empty_iff h).1 ‹_›]; rfl
  · rename_i he
    have hc : 0 < q.count := by
      have : q.count ≠ 0 := by simpa [empty] using he
      omega
    have hcount := h.count
    have hh := h.head (by omega)
    rw [List.head?_eq_getElem?, getElem?_toList h hc, mod_idx hh (by omega) h.len, if_pos (by omega)]
    simp

theorem popFront_spec {q : Queue α} (h : q.WF) :
    match q.toList with
    | [] => q.popFront = none
    | x :: xs => ∃ q', q.popFront = some (x, q') ∧ q'.WF ∧ q'.toList = xs ∧
        q'.buf = q.buf ∧ q'.seq = q.seq := by
  have hlen := h.len
  have hcount := h.count
  have hpk := peekFront_eq h
  have hel := length_toList h
  split
  · rename_i he
    have : q.empty = true := (empty_iff h).2 he
    simp [popFront, this]
  · rename_i x xs he
    rw [he] at hpk hel
    have hne : q.empty = false := by
      cases hx : q.empty with
      | false => rfl
      | true => rw [(empty_iff h).1 hx] at he; cases he
    have hc : 0 < q.count := by rw [← hel]; simp
    have hh := h.head (by omega)
    have hx : q.buf[q.head]? = some x := by simpa [peekFront, hne] using hpk
    have hcnt : wsub q.count 1 = q.count - 1 := wsub_eq (by omega) (by unfold W64 at *; omega)
    refine ⟨{ q with count := wsub q.count 1, head := wadd q.head 1 % q.buf.length }, ?_, ?_, ?_, rfl, rfl⟩
    · simp [popFront, hne, hx]
    · constructor <;> simp [hcnt]
      · exact hlen
      · omega
      · intro hp; exact Nat.mod_lt _ hp
      · exact h.seq
    · have hwf : WF { q with count := wsub q.count 1, head := wadd q.head 1 % q.buf.length } := by
        constructor <;> simp [hcnt]
        · exact hlen
        · omega
        · intro hp; exact Nat.mod_lt _ hp
        · exact h.seq
      apply List.ext_getElem?
      intro i
      by_cases hi : i < q.count - 1
      · rw [getElem?_toList hwf (by simpa [hcnt] using hi)]
        have h2 : q.toList[i+1]? = xs[i]? := by rw [he]; simp
        rw [← h2, getElem?_toList h (by omega)]
        simp only
        have hmod : wadd q.head 1 % q.buf.length < q.buf.length := Nat.mod_lt _ (by omega)
        have e1 := mod_idx hmod (i := i) (by omega) hlen
        have e2 := mod_idx hh (i := 1) (by omega) hlen
        have e3 := mod_idx hh (i := i + 1) (by omega) hlen
        have e : wadd (wadd q.head 1 % q.buf.length) i % q.buf.length
            = wadd q.head (i + 1) % q.buf.length := by
          rw [e2] at e1
          rw [e2, e1, e3]
          clear e1 e2 e3 hmod hlen hx
          generalize q.head = a at *
          generalize q.buf.length = n at *
          split <;> split <;> split <;> omega
        rw [e]
      · rw [List.getElem?_eq_none (by rw [length_toList hwf]; simp [hcnt]; omega),
          List.getElem?_eq_none (by simp at hel; omega)]

theorem revertPushes_spec {q : Queue α} (h : q.WF) (n : Nat) :
    if n ≤ q.toList.length then
      ∃ q', q.revertPushes n = some q' ∧ q'.WF ∧ q'.toList = q.toList.take n ∧
        q'.buf = q.buf ∧ q'.seq = wsub q.seq (q.toList.length - n)
    else q.revertPushes n = none := by
  rw [length_toList h]
  split
  · rename_i hn
    refine ⟨{ q with count := n, seq := wsub q.seq (q.count - n) },
      by simp [revertPushes, hn], ?_, ?_, rfl, rfl⟩
    · have := h.count; have := h.head
      constructor <;> simp
      · exact h.len
      · omega
      · assumption
      · exact wsub_lt _ _
    · simp [toList, List.take_take, Nat.min_eq_left hn]
  · simp [revertPushes, *]

theorem iterFrom_eq {q : Queue α} (h : q.WF) (fuel i : Nat) (hi : i ≤ q.count)
    (hf : q.count - i < fuel) : iterFrom q i fuel = q.toList.drop i := by
  have hcount := h.count
  induction fuel generalizing i with
  | zero => omega
  | succ n ih =>
    unfold iterFrom
    split
    · rename_i he
      have he : i = q.count := by simpa using he
      rw [List.drop_eq_nil_of_le]
      rw [length_toList h]; omega
    · rename_i he
      have hlt : i < q.count := by
        have : i ≠ q.count := by simpa using he
        omega
      have hget := getElem?_toList h hlt
      have hl : i < q.toList.length := by rw [length_toList h]; exact hlt
      rw [List.getElem?_eq_getElem hl] at hget
      rw [← hget]
      simp only
      rw [ih (i+1) (by omega) (by omega), List.drop_eq_getElem_cons hl]

theorem iter_eq {q : Queue α} (h : q.WF) : q.iter = q.toList := by
  unfold iter
  rw [iterFrom_eq h _ 0 (by omega) (by omega)]; simp

/-- A freshly initialised queue (`state.rs` 3536-3560: head, count and counter zero). -/
def fresh (buf : List α) : Queue α := { head := 0, count := 0, seq := 0, buf := buf }

theorem fresh_wf {buf : List α} (h : buf.length < W64 / 2) : (fresh buf).WF := by
  constructor <;> simp [fresh]
  · exact h
  · decide

theorem fresh_toList (buf : List α) : (fresh buf).toList = [] := by simp [fresh, toList]

end Queue
end Serum
