import Verif.Queue

/-!
Properties C05–C06: the ring buffer used for requests and events.
-/

namespace Serum.Props

/-- Client operations on a queue. -/
inductive QOp (α : Type) where
  | push (x : α) | pop | peek | list

/-- What the client sees. -/
inductive QOut (α : Type) where
  | pushed | refused (x : α) | popped (x : Option α) | peeked (x : Option α) | listed (xs : List α)
  deriving DecidableEq

/-- The implementation: a refused push hands the value back (`Err(value)`). -/
def qStep {α} (q : Queue α) : QOp α → Queue α × QOut α
  | .push x => match q.pushBack x with
    | none => (q, .refused x)
    | some q' => (q', .pushed)
  | .pop => match q.popFront with
    | none => (q, .popped none)
    | some (x, q') => (q', .popped (some x))
  | .peek => (q, .peeked q.peekFront)
  | .list => (q, .listed q.iter)

/-- The specification: a list of at most `cap` items, oldest first. -/
def fifoStep {α} (cap : Nat) (xs : List α) : QOp α → List α × QOut α
  | .push x => if xs.length < cap then (xs ++ [x], .pushed) else (xs, .refused x)
  | .pop => match xs with
    | [] => ([], .popped none)
    | y :: ys => (ys, .popped (some y))
  | .peek => (xs, .peeked xs.head?)
  | .list => (xs, .listed xs)

/-- Run a list of operations, collecting outputs. -/
def runOps {σ ι ο : Type} (step : σ → ι → σ × ο) : σ → List ι → σ × List ο
  | s, [] => (s, [])
  | s, i :: is =>
    let r := step s i
    let t := runOps step r.1 is
    (t.1, r.2 :: t.2)

theorem qStep_refines {α} {q : Queue α} (h : q.WF) (op : QOp α) :
    (qStep q op).1.WF ∧ (qStep q op).1.buf.length = q.buf.length ∧
    (qStep q op).1.toList = (fifoStep q.buf.length q.toList op).1 ∧
    (qStep q op).2 = (fifoStep q.buf.length q.toList op).2 := by
  cases op with
  | push x =>
    simp only [qStep, fifoStep]
    have hle : q.toList.length ≤ q.buf.length := by rw [Queue.length_toList h]; exact h.count
    cases hp : q.pushBack x with
    | none =>
      have := (Queue.pushBack_none h).1 hp
      simp only
      rw [if_neg (by omega)]
      exact ⟨h, trivial, rfl, rfl⟩
    | some q' =>
      have hn : q.toList.length ≠ q.buf.length := by
        intro e; rw [(Queue.pushBack_none h).2 e] at hp; cases hp
      obtain ⟨h1, h2, h3, _⟩ := Queue.pushBack_spec h hp
      simp only
      rw [if_pos (by omega)]
      exact ⟨h1, h3, h2, rfl⟩
  | pop =>
    simp only [qStep, fifoStep]
    have := Queue.popFront_spec h
    cases hl : q.toList with
    | nil =>
      rw [hl] at this
      simp only at this
      rw [this]
      exact ⟨h, rfl, hl, rfl⟩
    | cons x xs =>
      rw [hl] at this
      obtain ⟨q', e, h1, h2, h3, _⟩ := this
      rw [e]
      exact ⟨h1, by rw [h3], h2, rfl⟩
  | peek => exact ⟨h, rfl, rfl, by simp only [qStep, fifoStep, Queue.peekFront_eq h]⟩
  | list => exact ⟨h, rfl, rfl, by simp only [qStep, fifoStep, Queue.iter_eq h]⟩

/-- C05, from any well-formed state (any head position): every operation sequence behaves like the
bounded list. -/
theorem queue_is_bounded_fifo_from {α} (q : Queue α) (h : q.WF) (ops : List (QOp α)) :
    (runOps qStep q ops).2 = (runOps (fifoStep q.buf.length) q.toList ops).2 ∧
    (runOps qStep q ops).1.iter = (runOps (fifoStep q.buf.length) q.toList ops).1 := by
  induction ops generalizing q with
  | nil => exact ⟨rfl, Queue.iter_eq h⟩
  | cons op ops ih =>
    obtain ⟨h1, h2, h3, h4⟩ := qStep_refines h op
    have := ih _ h1
    rw [h2, h3] at this
    simp only [runOps]
    exact ⟨by rw [h4, this.1], this.2⟩

/-- C05. A fresh queue of any capacity driven by any sequence of push, pop, peek and iterate shows
exactly the outputs of a first-in-first-out list bounded by that capacity. -/
theorem queue_is_bounded_fifo {α} (buf : List α) (hlen : buf.length < 2 ^ 63)
    (ops : List (QOp α)) :
    (runOps qStep (Queue.fresh buf) ops).2 = (runOps (fifoStep buf.length) [] ops).2 := by
  have h := queue_is_bounded_fifo_from (Queue.fresh buf) (Queue.fresh_wf hlen) ops
  rw [Queue.fresh_toList] at h
  exact h.1

-- wrap-around, refusal and iteration on a capacity-2 queue
example : (runOps qStep (Queue.fresh [0, 0])
    [.push 1, .push 2, .push 3, .pop, .push 4, .list, .pop, .peek]).2 =
    [.pushed, .pushed, .refused 3, .popped (some 1), .pushed, .listed [2, 4], .popped (some 2),
      .peeked (some 4)] := by decide

/-- Push a list of items, all of which must be accepted. -/
def pushAll {α} (q : Queue α) : List α → Option (Queue α)
  | [] => some q
  | x :: xs => (q.pushBack x).bind (pushAll · xs)

theorem pushAll_spec {α} {q q' : Queue α} (h : q.WF) {xs : List α} (hp : pushAll q xs = some q') :
    q'.WF ∧ q'.toList = q.toList ++ xs ∧ q'.buf.length = q.buf.length ∧
      q'.seq = (q.seq + xs.length) % W64 := by
  induction xs generalizing q with
  | nil =>
    cases hp
    refine ⟨h, by simp, rfl, ?_⟩
    have := h.seq; simp [Nat.mod_eq_of_lt this]
  | cons x xs ih =>
    simp only [pushAll] at hp
    cases hx : q.pushBack x with
    | none => simp [hx] at hp
    | some q1 =>
      simp [hx] at hp
      obtain ⟨h1, h2, h3, h4⟩ := Queue.pushBack_spec h hx
      obtain ⟨g1, g2, g3, g4⟩ := ih h1 hp
      refine ⟨g1, by rw [g2, h2]; simp, by rw [g3, h3], ?_⟩
      rw [g4, h4]
      simp only [wadd, List.length_cons]
      unfold W64
      omega

/-- C06. Pushing any items and then reverting to the earlier length restores contents and sequence
counter; asking for more items than are present is rejected. -/
theorem revert_undoes_pushes {α} (q : Queue α) (h : q.WF) (xs : List α) (q' : Queue α)
    (hp : pushAll q xs = some q') :
    (∃ q'', q'.revertPushes q.iter.length = some q'' ∧ q''.iter = q.iter ∧ q''.seq = q.seq ∧
      q''.WF) ∧
    ∀ n, q'.iter.length < n → q'.revertPushes n = none := by
  obtain ⟨g1, g2, g3, g4⟩ := pushAll_spec h hp
  rw [Queue.iter_eq h, Queue.iter_eq g1]
  constructor
  · have := Queue.revertPushes_spec g1 q.toList.length
    rw [if_pos (by rw [g2]; simp)] at this
    obtain ⟨q'', e, w1, w2, w3, w4⟩ := this
    refine ⟨q'', e, ?_, ?_, w1⟩
    · rw [Queue.iter_eq w1, w2, g2]; simp
    · rw [w4, g4, g2]
      have hl : xs.length ≤ q'.buf.length := by
        have a := g1.count; rw [← Queue.length_toList g1, g2] at a; simp at a; omega
      have := h.seq; have := g1.len
      simp only [List.length_append, wsub]
      unfold W64 at *
      omega
  · intro n hn
    have := Queue.revertPushes_spec g1 n
    rwa [if_neg (by omega)] at this

example : ∃ q', pushAll (Queue.fresh [0, 0, 0]) [7, 8] = some q' ∧ q'.iter = [7, 8] := by
  exact ⟨_, rfl, rfl⟩

end Serum.Props
