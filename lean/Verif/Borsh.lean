import Verif.Instr

/-
Borsh, the encoding of pool requests and pool records (`#[derive(BorshSerialize, BorshDeserialize)]` in
`pool/schema/src/schema.rs` and `pool/examples/admin-controlled/src/lib.rs`). The library is a dependency; this is its
specification: integers little-endian, sequences and strings with a 32-bit count, options and booleans with one byte 0 or
1, enums with one byte for the variant, structs field by field. `dec` is `BorshDeserialize::deserialize`, which leaves the
rest of the input; `all` is `try_from_slice`, which wants none.
-/

namespace Serum.Borsh

/-- Serialiser, deserialiser, and the values that a Rust value of the type can hold. -/
structure Codec (α : Type) where
  enc : α → List UInt8
  dec : List UInt8 → Option (α × List UInt8)
  ok : α → Prop

/-- `try_from_slice`. -/
def Codec.all {α : Type} (c : Codec α) (d : List UInt8) : Option α :=
  match c.dec d with
  | some (v, []) => some v
  | _ => none

/-- `u8`, `u32`, `u64`, and the 32 bytes of an address as a number. -/
def uint (n : Nat) : Codec Nat where
  enc x := leBytes n x
  dec d := if d.length < n then none else some (ofLe (d.take n), d.drop n)
  ok x := x < 256 ^ n

/-- `bool`. -/
def bool : Codec Bool where
  enc b := [if b then 1 else 0]
  dec
    | [] => none
    | x :: r => if x = 0 then some (false, r) else if x = 1 then some (true, r) else none
  ok _ := True

/-- Two fields. -/
def pair {α β : Type} (a : Codec α) (b : Codec β) : Codec (α × β) where
  enc v := a.enc v.1 ++ b.enc v.2
  dec d := do
    let (x, r) ← a.dec d
    let (y, r) ← b.dec r
    return ((x, y), r)
  ok v := a.ok v.1 ∧ b.ok v.2

/-- The same bytes read as another type. -/
def iso {α β : Type} (f : α → β) (g : β → α) (c : Codec α) : Codec β where
  enc v := c.enc (g v)
  dec d := (c.dec d).map fun p => (f p.1, p.2)
  ok v := c.ok (g v)

/-- A type whose deserialiser rejects some values. -/
def only {α : Type} (p : α → Bool) (c : Codec α) : Codec α where
  enc := c.enc
  dec d := (c.dec d).filter fun q => p q.1
  ok v := c.ok v ∧ p v = true

/-- `n` elements in a row. -/
def decN {α : Type} (c : Codec α) : Nat → List UInt8 → Option (List α × List UInt8)
  | 0, d => some ([], d)
  | n + 1, d => do
    let (x, r) ← c.dec d
    let (l, r) ← decN c n r
    return (x :: l, r)

/-- `Vec<T>`. -/
def vec {α : Type} (c : Codec α) : Codec (List α) where
  enc l := leBytes 4 l.length ++ l.flatMap c.enc
  dec d := do
    let (n, r) ← (uint 4).dec d
    decN c n r
  ok l := l.length < 256 ^ 4 ∧ ∀ x ∈ l, c.ok x

/-- `Option<T>`. -/
def opt {α : Type} (c : Codec α) : Codec (Option α) where
  enc
    | none => [0]
    | some v => 1 :: c.enc v
  dec
    | [] => none
    | x :: r => if x = 0 then some (none, r) else if x = 1 then (c.dec r).map fun p => (some p.1, p.2) else none
  ok v := ∀ x, v = some x → c.ok x

/-- `u8` as a byte. -/
def byte : Codec UInt8 where
  enc b := [b]
  dec
    | [] => none
    | x :: r => some (x, r)
  ok _ := True

/-- `declare_tag!`, `schema.rs` 43-70: a fixed number. -/
def tag (n t : Nat) : Codec Unit where
  enc _ := leBytes n t
  dec d := match (uint n).dec d with
    | some (x, r) => if x = t then some ((), r) else none
    | none => none
  ok _ := t < 256 ^ n

/-- The last variant of an enum. -/
def last {α : Type} (i : UInt8) (a : Codec α) : Codec α where
  enc v := i :: a.enc v
  dec
    | [] => none
    | x :: r => if x = i then a.dec r else none
  ok := a.ok

/-- A variant of an enum before others. -/
def variant {α β : Type} (i : UInt8) (a : Codec α) (b : Codec β) : Codec (α ⊕ β) where
  enc
    | .inl v => i :: a.enc v
    | .inr v => b.enc v
  dec
    | [] => none
    | x :: r => if x = i then (a.dec r).map fun p => (.inl p.1, p.2) else (b.dec (x :: r)).map fun p => (.inr p.1, p.2)
  ok
    | .inl v => a.ok v
    | .inr v => b.ok v

/-- No fields. -/
def unit : Codec Unit where
  enc _ := []
  dec d := some ((), d)
  ok _ := True

/-- Valid UTF-8, as `String::from_utf8` checks it: `n` continuation bytes are still due, the next between `lo` and
`hi`. -/
def utf8From : Nat → Nat → Nat → List UInt8 → Bool
  | 0, _, _, [] => true
  | _ + 1, _, _, [] => false
  | n + 1, lo, hi, a :: l => lo ≤ a.toNat && a.toNat ≤ hi && utf8From n 128 191 l
  | 0, _, _, a :: l =>
    let x := a.toNat
    if x < 128 then utf8From 0 0 0 l
    else if x < 194 then false
    else if x < 224 then utf8From 1 128 191 l
    else if x = 224 then utf8From 2 160 191 l
    else if x = 237 then utf8From 2 128 159 l
    else if x < 240 then utf8From 2 128 191 l
    else if x = 240 then utf8From 3 144 191 l
    else if x < 244 then utf8From 3 128 191 l
    else if x = 244 then utf8From 3 128 143 l
    else false

def utf8 (l : List UInt8) : Bool := utf8From 0 0 0 l

/-- `String`, as its bytes. -/
def string : Codec (List UInt8) := only utf8 (vec byte)

/-! ### Laws -/

/-- What was written is read back, whatever follows; and nothing else is accepted. -/
structure Lawful {α : Type} (c : Codec α) : Prop where
  back : ∀ v r, c.ok v → c.dec (c.enc v ++ r) = some (v, r)
  canon : ∀ d v r, c.dec d = some (v, r) → c.ok v ∧ d = c.enc v ++ r

theorem Lawful.all {α : Type} {c : Codec α} (h : Lawful c) {d : List UInt8} {v : α} :
    c.all d = some v ↔ c.ok v ∧ d = c.enc v := by
  unfold Codec.all
  constructor
  · intro e
    split at e
    · rename_i u hu
      cases e
      have := h.canon _ _ _ hu
      simpa using this
    · cases e
  · rintro ⟨h1, rfl⟩
    have := h.back v [] h1
    rw [List.append_nil] at this
    rw [this]

theorem Lawful.inj {α : Type} {c : Codec α} (h : Lawful c) {u v : α} (hu : c.ok u) (hv : c.ok v) {r s : List UInt8}
    (e : c.enc u ++ r = c.enc v ++ s) : u = v ∧ r = s := by
  have h1 := h.back u r hu
  rw [e, h.back v s hv] at h1
  cases h1
  exact ⟨rfl, rfl⟩

theorem lawful_uint (n : Nat) : Lawful (uint n) := by
  refine ⟨fun v r h => ?_, fun d v r h => ?_⟩
  · have h : v < 256 ^ n := h
    simp only [uint, List.length_append, leBytes_length]
    rw [if_neg (by omega), List.take_left' (leBytes_length n v), List.drop_left' (leBytes_length n v), ofLe_leBytes n v h]
  · simp only [uint] at h ⊢
    split at h
    · cases h
    · rename_i hl
      cases h
      have e : (d.take n).length = n := by rw [List.length_take]; omega
      refine ⟨?_, ?_⟩
      · have := ofLe_lt (d.take n)
        rwa [e] at this
      · have := leBytes_ofLe (d.take n)
        rw [e] at this
        rw [this, List.take_append_drop]

theorem lawful_bool : Lawful bool := by
  refine ⟨fun v r _ => ?_, fun d v r h => ?_⟩
  · cases v <;> rfl
  · cases d with
    | nil => cases h
    | cons x d =>
      simp only [bool] at h ⊢
      split at h
      · rename_i e; cases h; rw [e]; exact ⟨trivial, rfl⟩
      · split at h
        · rename_i e; cases h; rw [e]; exact ⟨trivial, rfl⟩
        · cases h

theorem lawful_byte : Lawful byte := by
  refine ⟨fun v r _ => rfl, fun d v r h => ?_⟩
  cases d with
  | nil => cases h
  | cons x d => cases h; exact ⟨trivial, rfl⟩

theorem lawful_unit : Lawful unit :=
  ⟨fun _ _ _ => rfl, fun _ _ _ h => by cases h; exact ⟨trivial, rfl⟩⟩

theorem lawful_pair {α β : Type} {a : Codec α} {b : Codec β} (ha : Lawful a) (hb : Lawful b) : Lawful (pair a b) := by
  refine ⟨fun v r h => ?_, fun d v r h => ?_⟩
  · simp only [pair, List.append_assoc]
    rw [ha.back v.1 _ h.1]
    show (do let (y, r) ← b.dec (b.enc v.2 ++ r); return ((v.1, y), r)) = _
    rw [hb.back v.2 _ h.2]
    rfl
  · simp only [pair] at h ⊢
    cases h1 : a.dec d with
    | none => rw [h1] at h; cases h
    | some p =>
      obtain ⟨x, r1⟩ := p
      rw [h1] at h
      have h : (do let (y, r) ← b.dec r1; return ((x, y), r)) = some (v, r) := h
      cases h2 : b.dec r1 with
      | none => rw [h2] at h; cases h
      | some q =>
        obtain ⟨y, r2⟩ := q
        rw [h2] at h
        cases h
        obtain ⟨k1, e1⟩ := ha.canon _ _ _ h1
        obtain ⟨k2, e2⟩ := hb.canon _ _ _ h2
        exact ⟨⟨k1, k2⟩, by rw [e1, e2, List.append_assoc]⟩

theorem lawful_iso {α β : Type} {c : Codec α} (h : Lawful c) {f : α → β} {g : β → α} (hf : ∀ v, f (g v) = v)
    (hg : ∀ u, g (f u) = u) : Lawful (iso f g c) := by
  refine ⟨fun v r hv => ?_, fun d v r hd => ?_⟩
  · simp only [iso]
    rw [h.back _ r hv]
    simp [hf]
  · simp only [iso, Option.map_eq_some_iff] at hd ⊢
    obtain ⟨⟨u, r'⟩, h1, h2⟩ := hd
    cases h2
    rw [hg]
    exact h.canon _ _ _ h1

theorem lawful_only {α : Type} {p : α → Bool} {c : Codec α} (h : Lawful c) : Lawful (only p c) := by
  refine ⟨fun v r hv => ?_, fun d v r hd => ?_⟩
  · simp only [only]
    rw [h.back _ r hv.1]
    simp [hv.2]
  · simp only [only, Option.filter_eq_some_iff] at hd ⊢
    obtain ⟨k1, k2⟩ := h.canon _ _ _ hd.1
    exact ⟨⟨k1, hd.2⟩, k2⟩

theorem decN_back {α : Type} {c : Codec α} (h : Lawful c) (l : List α) (hl : ∀ x ∈ l, c.ok x) (r : List UInt8) :
    decN c l.length (l.flatMap c.enc ++ r) = some (l, r) := by
  induction l with
  | nil => rfl
  | cons x l ih =>
    simp only [List.length_cons, decN, List.flatMap_cons, List.append_assoc]
    rw [h.back x _ (hl x (by simp))]
    show (do let (l', r) ← decN c l.length (l.flatMap c.enc ++ r); return (x :: l', r)) = _
    rw [ih (fun y hy => hl y (by simp [hy]))]
    rfl

theorem decN_canon {α : Type} {c : Codec α} (h : Lawful c) {n : Nat} {d : List UInt8} {l : List α} {r : List UInt8}
    (e : decN c n d = some (l, r)) : l.length = n ∧ (∀ x ∈ l, c.ok x) ∧ d = l.flatMap c.enc ++ r := by
  induction n generalizing d l with
  | zero => cases e; exact ⟨rfl, by simp, rfl⟩
  | succ n ih =>
    simp only [decN] at e
    cases h1 : c.dec d with
    | none => rw [h1] at e; cases e
    | some p =>
      obtain ⟨x, r1⟩ := p
      rw [h1] at e
      have e : (do let (l', r) ← decN c n r1; return (x :: l', r)) = some (l, r) := e
      cases h2 : decN c n r1 with
      | none => rw [h2] at e; cases e
      | some q =>
        obtain ⟨l', r2⟩ := q
        rw [h2] at e
        cases e
        obtain ⟨i1, i2, i3⟩ := ih h2
        obtain ⟨k1, k2⟩ := h.canon _ _ _ h1
        refine ⟨by simp [i1], ?_, ?_⟩
        · intro y hy
          rcases List.mem_cons.1 hy with rfl | hy
          · exact k1
          · exact i2 y hy
        · rw [k2, i3, List.flatMap_cons, List.append_assoc]

theorem lawful_vec {α : Type} {c : Codec α} (h : Lawful c) : Lawful (vec c) := by
  refine ⟨fun v r hv => ?_, fun d v r hd => ?_⟩
  · simp only [vec, List.append_assoc]
    have := (lawful_uint 4).back v.length (v.flatMap c.enc ++ r) hv.1
    rw [show leBytes 4 v.length = (uint 4).enc v.length from rfl, this]
    exact decN_back h v hv.2 r
  · simp only [vec] at hd ⊢
    cases h1 : (uint 4).dec d with
    | none => rw [h1] at hd; cases hd
    | some p =>
      obtain ⟨n, r1⟩ := p
      rw [h1] at hd
      have hd : decN c n r1 = some (v, r) := hd
      obtain ⟨i1, i2, i3⟩ := decN_canon h hd
      obtain ⟨k1, k2⟩ := (lawful_uint 4).canon _ _ _ h1
      subst i1
      exact ⟨⟨k1, i2⟩, by rw [k2, i3, List.append_assoc]; rfl⟩

theorem lawful_opt {α : Type} {c : Codec α} (h : Lawful c) : Lawful (opt c) := by
  refine ⟨fun v r hv => ?_, fun d v r hd => ?_⟩
  · cases v with
    | none => rfl
    | some v =>
      have := h.back v r (hv v rfl)
      simp only [opt, List.cons_append]
      rw [if_neg (by decide), if_pos trivial, this]
      rfl
  · cases d with
    | nil => cases hd
    | cons x d =>
      simp only [opt] at hd ⊢
      split at hd
      · rename_i e; cases hd; rw [e]; exact ⟨fun _ h => (by cases h), rfl⟩
      · split at hd
        · rename_i e
          rw [Option.map_eq_some_iff] at hd
          obtain ⟨⟨u, r'⟩, h1, h2⟩ := hd
          cases h2
          obtain ⟨k1, k2⟩ := h.canon _ _ _ h1
          rw [e, k2]
          exact ⟨fun _ h => by cases h; exact k1, rfl⟩
        · cases hd

theorem lawful_tag (n t : Nat) : Lawful (tag n t) := by
  refine ⟨fun v r hv => ?_, fun d v r hd => ?_⟩
  · have := (lawful_uint n).back t r hv
    simp only [tag]
    rw [show leBytes n t = (uint n).enc t from rfl, this]
    simp
  · simp only [tag] at hd ⊢
    split at hd
    · rename_i x r' h1
      split at hd
      · rename_i e
        cases hd
        obtain ⟨k1, k2⟩ := (lawful_uint n).canon _ _ _ h1
        subst e
        exact ⟨k1, k2⟩
      · cases hd
    · cases hd

theorem lawful_last {α : Type} {i : UInt8} {a : Codec α} (ha : Lawful a) : Lawful (last i a) := by
  refine ⟨fun v r hv => ?_, fun d v r hd => ?_⟩
  · simp only [last, List.cons_append, if_true]
    exact ha.back v r hv
  · cases d with
    | nil => cases hd
    | cons x d =>
      simp only [last] at hd ⊢
      split at hd
      · rename_i e
        obtain ⟨k1, k2⟩ := ha.canon _ _ _ hd
        rw [e, k2]
        exact ⟨k1, rfl⟩
      · cases hd

/-- The first byte written is one of the given. -/
def Heads {α : Type} (c : Codec α) (l : List UInt8) : Prop := ∀ v, ∃ x ∈ l, ∃ t, c.enc v = x :: t

theorem heads_last {α : Type} {i : UInt8} {a : Codec α} : Heads (last i a) [i] := fun v => ⟨i, by simp, a.enc v, rfl⟩

theorem heads_variant {α β : Type} {i : UInt8} {a : Codec α} {b : Codec β} {l : List UInt8} (h : Heads b l) :
    Heads (variant i a b) (i :: l) := by
  intro v
  cases v with
  | inl v => exact ⟨i, by simp, a.enc v, rfl⟩
  | inr v =>
    obtain ⟨x, hx, t, e⟩ := h v
    exact ⟨x, by simp [hx], t, e⟩

theorem lawful_variant {α β : Type} {i : UInt8} {a : Codec α} {b : Codec β} {l : List UInt8} (ha : Lawful a)
    (hb : Lawful b) (hh : Heads b l) (hi : i ∉ l) : Lawful (variant i a b) := by
  refine ⟨fun v r hv => ?_, fun d v r hd => ?_⟩
  · cases v with
    | inl v =>
      simp only [variant, List.cons_append, if_true]
      rw [ha.back v r hv]
      rfl
    | inr v =>
      obtain ⟨x, hx, t, e⟩ := hh v
      have := hb.back v r hv
      simp only [variant]
      rw [e] at this ⊢
      simp only [List.cons_append] at this ⊢
      rw [if_neg (fun (h : x = i) => hi (h ▸ hx)), this]
      rfl
  · cases d with
    | nil => cases hd
    | cons x d =>
      simp only [variant] at hd
      split at hd
      · rename_i e
        rw [Option.map_eq_some_iff] at hd
        obtain ⟨⟨u, r'⟩, h1, h2⟩ := hd
        cases h2
        obtain ⟨k1, k2⟩ := ha.canon _ _ _ h1
        exact ⟨k1, by rw [e, k2]; rfl⟩
      · rw [Option.map_eq_some_iff] at hd
        obtain ⟨⟨u, r'⟩, h1, h2⟩ := hd
        cases h2
        obtain ⟨k1, k2⟩ := hb.canon _ _ _ h1
        exact ⟨k1, k2⟩

theorem lawful_string : Lawful string := lawful_only (lawful_vec lawful_byte)

end Serum.Borsh
