import Verif.Utf8
import Verif.PoolBytes
import Verif.PropsPoolHist

/-
C72: pool requests and pool records survive the trip through bytes, and the program on bytes does what C47-C49 and
C55-C58 say of decoded pools.
-/

namespace Serum.Props

open Pool Borsh

/-! ### Layout, spelled out -/

/-- The bytes of what a client may send to a pool. -/
inductive PoolMsg where
  | request (r : Pool.Request)
  | admin (ix : AdminIx)

/-- A count and the elements. -/
def counted {α : Type} (f : α → List UInt8) (l : List α) : List UInt8 := leBytes 4 l.length ++ l.flatMap f

def actionBytes : Action → List UInt8
  | .create n => 0 :: leBytes 8 n
  | .redeem n => 1 :: leBytes 8 n
  | .swap l => 2 :: counted (leBytes 8) l

def PoolMsg.bytes : PoolMsg → List UInt8
  | .request (.init r) => leBytes 8 0x220a6cbdcd1cc4cf ++ 0 :: (leBytes 1 r.nonce ++ leBytes 1 r.assets ++
      counted (fun b => [b]) r.name ++ leBytes 4 r.feeRate ++ counted (fun b => [b]) r.data)
  | .request (.getBasket a) => leBytes 8 0x220a6cbdcd1cc4cf ++ 1 :: actionBytes a
  | .request (.exec a) => leBytes 8 0x220a6cbdcd1cc4cf ++ 2 :: actionBytes a
  | .admin .pause => leBytes 8 0x31e6452361a17878 ++ [0]
  | .admin .unpause => leBytes 8 0x31e6452361a17878 ++ [1]
  | .admin (.approveDelegate n) => leBytes 8 0x31e6452361a17878 ++ 2 :: leBytes 8 n
  | .admin .addAsset => leBytes 8 0x31e6452361a17878 ++ [3]
  | .admin .removeAsset => leBytes 8 0x31e6452361a17878 ++ [4]
  | .admin (.updateFee n) => leBytes 8 0x31e6452361a17878 ++ 5 :: leBytes 4 n
  | .admin .updateAdmin => leBytes 8 0x31e6452361a17878 ++ [6]

/-- The bytes of a pool record. -/
def recordBytes (p : Record) : List UInt8 :=
  leBytes 8 0x16a7874c7fb2301b ++ leBytes 32 p.mint ++ counted (fun a : Asset => leBytes 32 a.mint ++ leBytes 32 a.vault) p.assets ++
  leBytes 32 p.signer ++ leBytes 1 p.nonce ++ counted (fun q : Nat × Bool => leBytes 32 q.1 ++ [if q.2 then 1 else 0]) p.params ++
  counted (fun b => [b]) p.name ++ leBytes 32 p.lqdVault ++ leBytes 32 p.initVault ++ leBytes 4 p.feeRate ++
  (match p.admin with | none => [0] | some a => 1 :: leBytes 32 a) ++ counted (fun b => [b]) p.custom

/-- The bytes of the admin-controlled pool's flag. -/
def pausedBytes (b : Bool) : List UInt8 := leBytes 8 0x4a3ab7f76f93f94e ++ [if b then 1 else 0]

/-! ### What fits -/

def ActionFits : Action → Prop
  | .create n | .redeem n => n < W64
  | .swap l => l.length < 2 ^ 32 ∧ ∀ n ∈ l, n < W64

def PoolMsg.Fits : PoolMsg → Prop
  | .request (.init r) => r.nonce < 256 ∧ r.assets < 256 ∧ (r.name.length < 2 ^ 32 ∧ Utf8.IsText r.name) ∧ r.feeRate < 2 ^ 32 ∧
      r.data.length < 2 ^ 32
  | .request (.getBasket a) | .request (.exec a) => ActionFits a
  | .admin (.approveDelegate n) => n < W64
  | .admin (.updateFee n) => n < 2 ^ 32
  | .admin _ => True

structure RecordFits (p : Record) : Prop where
  mint : p.mint < 256 ^ 32
  assets : p.assets.length < 2 ^ 32 ∧ ∀ a ∈ p.assets, a.mint < 256 ^ 32 ∧ a.vault < 256 ^ 32
  signer : p.signer < 256 ^ 32
  nonce : p.nonce < 256
  params : p.params.length < 2 ^ 32 ∧ ∀ a ∈ p.params, a.1 < 256 ^ 32
  name : p.name.length < 2 ^ 32 ∧ Utf8.IsText p.name
  lqdVault : p.lqdVault < 256 ^ 32
  initVault : p.initVault < 256 ^ 32
  feeRate : p.feeRate < 2 ^ 32
  admin : ∀ a, p.admin = some a → a < 256 ^ 32
  custom : p.custom.length < 2 ^ 32

/-! ### The codecs have this layout -/

theorem lawful_key : Lawful Pool.key := lawful_uint 32

theorem lawful_asset : Lawful assetCodec := lawful_iso (lawful_pair lawful_key lawful_key) (fun _ => rfl) (fun _ => rfl)

theorem lawful_record : Lawful recordCodec :=
  lawful_iso (lawful_pair (lawful_tag _ _) (lawful_pair lawful_key (lawful_pair (lawful_vec lawful_asset) (lawful_pair lawful_key
    (lawful_pair (lawful_uint 1) (lawful_pair (lawful_vec (lawful_pair lawful_key lawful_bool)) (lawful_pair lawful_string
    (lawful_pair lawful_key (lawful_pair lawful_key (lawful_pair (lawful_uint 4) (lawful_pair (lawful_opt lawful_key)
    (lawful_vec lawful_byte)))))))))))) (fun _ => rfl) (fun _ => rfl)

theorem lawful_custom : Lawful customCodec := lawful_iso (lawful_pair (lawful_tag _ _) lawful_bool) (fun _ => rfl) (fun _ => rfl)

theorem lawful_init : Lawful initCodec :=
  lawful_iso (lawful_pair (lawful_uint 1) (lawful_pair (lawful_uint 1) (lawful_pair lawful_string (lawful_pair (lawful_uint 4)
    (lawful_vec lawful_byte))))) (fun _ => rfl) (fun _ => rfl)

theorem lawful_action : Lawful actionCodec :=
  lawful_iso (lawful_variant (lawful_uint 8) (lawful_variant (lawful_uint 8) (lawful_last (lawful_vec (lawful_uint 8)))
    heads_last (by decide)) (heads_variant heads_last) (by decide)) (fun v => by cases v <;> rfl)
    (fun u => by rcases u with _ | _ | _ <;> rfl)

theorem lawful_request : Lawful requestCodec :=
  lawful_iso (lawful_pair (lawful_tag _ _) (lawful_variant lawful_init (lawful_variant lawful_action (lawful_last lawful_action)
    heads_last (by decide)) (heads_variant heads_last) (by decide))) (fun v => by cases v <;> rfl)
    (fun u => by rcases u with ⟨_, _ | _ | _⟩ <;> rfl)

theorem lawful_admin : Lawful adminCodec :=
  lawful_iso (lawful_pair (lawful_tag _ _) (lawful_variant lawful_unit (lawful_variant lawful_unit (lawful_variant (lawful_uint 8)
    (lawful_variant lawful_unit (lawful_variant lawful_unit (lawful_variant (lawful_uint 4) (lawful_last lawful_unit)
    heads_last (by decide)) (heads_variant heads_last) (by decide)) (heads_variant (heads_variant heads_last)) (by decide))
    (heads_variant (heads_variant (heads_variant heads_last))) (by decide))
    (heads_variant (heads_variant (heads_variant (heads_variant heads_last)))) (by decide))
    (heads_variant (heads_variant (heads_variant (heads_variant (heads_variant heads_last))))) (by decide)))
    (fun v => by cases v <;> rfl) (fun u => by rcases u with ⟨_, _ | _ | _ | _ | _ | _ | _⟩ <;> rfl)

theorem action_bytes (a : Action) : actionCodec.enc a = actionBytes a := by cases a <;> rfl

theorem action_ok (a : Action) : actionCodec.ok a ↔ ActionFits a := by
  cases a <;> exact Iff.rfl

theorem request_bytes (r : Pool.Request) : requestCodec.enc r = (PoolMsg.request r).bytes := by
  cases r with
  | init r => simp only [PoolMsg.bytes, List.append_assoc]; rfl
  | getBasket a => simp only [PoolMsg.bytes, ← action_bytes]; rfl
  | exec a => simp only [PoolMsg.bytes, ← action_bytes]; rfl

theorem request_ok (r : Pool.Request) : requestCodec.ok r ↔ (PoolMsg.request r).Fits := by
  have t : requestTag < 256 ^ 8 := by decide
  cases r with
  | init r =>
    constructor
    · rintro ⟨_, h1, h2, ⟨⟨h3, _⟩, h3'⟩, h4, h5, _⟩
      exact ⟨h1, h2, ⟨h3, (Utf8.utf8_iff _).1 h3'⟩, h4, h5⟩
    · rintro ⟨h1, h2, ⟨h3, h3'⟩, h4, h5⟩
      exact ⟨t, h1, h2, ⟨⟨h3, fun _ _ => trivial⟩, (Utf8.utf8_iff _).2 h3'⟩, h4, h5, fun _ _ => trivial⟩
  | getBasket a => exact ⟨fun h => (action_ok a).1 h.2, fun h => ⟨t, (action_ok a).2 h⟩⟩
  | exec a => exact ⟨fun h => (action_ok a).1 h.2, fun h => ⟨t, (action_ok a).2 h⟩⟩

theorem admin_bytes (ix : AdminIx) : adminCodec.enc ix = (PoolMsg.admin ix).bytes := by cases ix <;> rfl

theorem admin_ok (ix : AdminIx) : adminCodec.ok ix ↔ (PoolMsg.admin ix).Fits := by
  have t : adminTag < 256 ^ 8 := by decide
  cases ix <;> first | exact ⟨fun _ => trivial, fun _ => ⟨t, trivial⟩⟩ | exact ⟨fun h => h.2, fun h => ⟨t, h⟩⟩

theorem record_bytes (p : Record) : recordCodec.enc p = recordBytes p := by
  obtain ⟨a, b, c, d, e, f, g, h, i, j, k⟩ := p
  unfold recordBytes
  simp only [List.append_assoc]
  cases j <;> rfl

theorem record_ok (p : Record) : recordCodec.ok p ↔ RecordFits p := by
  have t : stateTag < 256 ^ 8 := by decide
  constructor
  · rintro ⟨_, h1, h2, h3, h4, h5, ⟨⟨h6, _⟩, h6'⟩, h7, h8, h9, h10, h11, _⟩
    exact ⟨h1, h2, h3, h4, ⟨h5.1, fun a ha => (h5.2 a ha).1⟩, ⟨h6, (Utf8.utf8_iff _).1 h6'⟩, h7, h8, h9, h10, h11⟩
  · rintro ⟨h1, h2, h3, h4, h5, ⟨h6, h6'⟩, h7, h8, h9, h10, h11⟩
    exact ⟨t, h1, h2, h3, h4, ⟨h5.1, fun a ha => ⟨h5.2 a ha, trivial⟩⟩, ⟨⟨h6, fun _ _ => trivial⟩, (Utf8.utf8_iff _).2 h6'⟩, h7, h8, h9, h10, h11,
      fun _ _ => trivial⟩

/-! ### C72: messages -/

theorem take8 (t : Nat) (l : List UInt8) : (leBytes 8 t ++ l).take 8 = leBytes 8 t := List.take_left' (leBytes_length 8 t)

theorem request_head (r : Pool.Request) : 8 ≤ (PoolMsg.request r).bytes.length ∧ ofLe ((PoolMsg.request r).bytes.take 8) = requestTag := by
  have t : ofLe (leBytes 8 0x220a6cbdcd1cc4cf) = requestTag := by decide
  cases r <;> exact ⟨by simp [PoolMsg.bytes], by unfold PoolMsg.bytes; rw [take8]; exact t⟩

theorem admin_head (ix : AdminIx) : ofLe ((PoolMsg.admin ix).bytes.take 8) = adminTag := by
  have t : ofLe (leBytes 8 0x31e6452361a17878) = adminTag := by decide
  cases ix <;> exact by unfold PoolMsg.bytes; rw [take8]; exact t

/-- What the entry point makes of instruction data: a request if it starts with the tag of requests, an admin instruction
otherwise. -/
def received (d : List UInt8) : Option PoolMsg :=
  if 8 ≤ d.length ∧ ofLe (d.take 8) = requestTag then (requestCodec.all d).map .request else (adminCodec.all d).map .admin

/-- C72. The program receives exactly what was sent; nothing else is received. -/
theorem pool_received {d : List UInt8} {m : PoolMsg} : received d = some m ↔ m.Fits ∧ d = m.bytes := by
  unfold received
  constructor
  · intro h
    split at h
    · obtain ⟨r, h1, rfl⟩ := Option.map_eq_some_iff.1 h
      obtain ⟨h2, h3⟩ := lawful_request.all.1 h1
      exact ⟨(request_ok r).1 h2, h3.trans (request_bytes r)⟩
    · obtain ⟨r, h1, rfl⟩ := Option.map_eq_some_iff.1 h
      obtain ⟨h2, h3⟩ := lawful_admin.all.1 h1
      exact ⟨(admin_ok r).1 h2, h3.trans (admin_bytes r)⟩
  · rintro ⟨h1, rfl⟩
    cases m with
    | request r =>
      rw [if_pos (request_head r), lawful_request.all.2 ⟨(request_ok r).2 h1, (request_bytes r).symm⟩]
      rfl
    | admin ix =>
      rw [if_neg (fun h => absurd ((admin_head ix).symm.trans h.2) (by decide)),
        lawful_admin.all.2 ⟨(admin_ok ix).2 h1, (admin_bytes ix).symm⟩]
      rfl

/-- C72. No two messages have the same bytes. -/
theorem pool_messages_differ {m m' : PoolMsg} (h : m.Fits) (h' : m'.Fits) (e : m.bytes = m'.bytes) : m = m' := by
  have h1 := pool_received.2 ⟨h, rfl⟩
  rw [e, pool_received.2 ⟨h', rfl⟩] at h1
  exact (Option.some.inj h1).symm

/-! ### C72: records -/

theorem tag_nonzero (l : List UInt8) : ((leBytes 8 0x16a7874c7fb2301b ++ l).all (· == 0)) = false := by
  rw [List.all_append]
  have : (leBytes 8 0x16a7874c7fb2301b).all (· == 0) = false := by decide
  rw [this]; rfl

/-- C72. An account holds no pool exactly if it is blank, and a pool exactly if it starts with the pool's bytes; whatever
follows them does not matter. -/
theorem pool_read {d : List UInt8} :
    (Pool.getState d = .ok none ↔ ∀ b ∈ d, b = 0) ∧
    ∀ p, Pool.getState d = .ok (some p) ↔ RecordFits p ∧ ∃ rest, d = recordBytes p ++ rest := by
  have z : d.all (· == 0) = true ↔ ∀ b ∈ d, b = 0 := by simp
  unfold Pool.getState
  refine ⟨?_, fun p => ?_⟩
  · rw [← z]
    constructor
    · intro h
      split at h
      · assumption
      · split at h <;> cases h
    · intro h
      rw [if_pos h]
  · constructor
    · intro h
      split at h
      · cases h
      · split at h
        · rename_i q r e
          cases h
          obtain ⟨h1, h2⟩ := lawful_record.canon _ _ _ e
          exact ⟨(record_ok _).1 h1, r, by rw [← record_bytes]; exact h2⟩
        · cases h
    · rintro ⟨h1, rest, rfl⟩
      have nz : ((recordBytes p ++ rest).all (· == 0)) = false := by
        unfold recordBytes
        simp only [List.append_assoc]
        exact tag_nonzero _
      rw [if_neg (by rw [nz]; decide), ← record_bytes, lawful_record.back p rest ((record_ok p).2 h1)]

/-- C72. What is saved is read back, if there is room; the account keeps its size. -/
theorem pool_saved {p : Record} {d d' : List UInt8} (h : Pool.saveState p d = .ok d') :
    d'.length = d.length ∧ (RecordFits p → Pool.getState d' = .ok (some p)) := by
  unfold Pool.saveState at h
  simp only at h
  split at h
  · cases h
  · rename_i hl
    cases h
    refine ⟨by rw [List.length_append, List.length_drop]; omega, fun hf => ?_⟩
    exact (pool_read.2 p).2 ⟨hf, _, by rw [← record_bytes]⟩

theorem pool_save_iff {p : Record} {d d' : List UInt8} :
    Pool.saveState p d = .ok d' ↔ (recordBytes p).length ≤ d.length ∧ d' = recordBytes p ++ d.drop (recordBytes p).length := by
  unfold Pool.saveState
  simp only [record_bytes]
  split
  · exact ⟨fun h => (by cases h), fun h => absurd h.1 (by omega)⟩
  · exact ⟨fun h => (by cases h; exact ⟨by omega, rfl⟩), fun h => by rw [h.2]⟩

/-- Saving what is there changes nothing. -/
theorem pool_save_same {p : Record} {d : List UInt8} (h : Pool.getState d = .ok (some p)) : Pool.saveState p d = .ok d := by
  obtain ⟨_, rest, rfl⟩ := (pool_read.2 p).1 h
  exact pool_save_iff.2 ⟨by simp, by rw [List.drop_left]⟩

/-! ### C72: requests -/

theorem custom_all {d : List UInt8} {b : Bool} : customCodec.all d = some b ↔ d = pausedBytes b := by
  rw [lawful_custom.all]
  constructor
  · rintro ⟨_, h⟩; exact h
  · intro h; exact ⟨⟨(by decide : customTag < 256 ^ 8), trivial⟩, h⟩

/-- The message as a request to a decoded pool. -/
def PoolMsg.req : PoolMsg → Req
  | .request (.init r) => .init ⟨r.nonce, r.assets, r.feeRate⟩
  | .request (.getBasket a) => .getBasket a
  | .request (.exec a) => .exec a
  | .admin ix => .admin ix

/-- The pool's record after a message that left the decoded pool as `st`. -/
def PoolMsg.record (m : PoolMsg) (old : Option Record) (st : PoolState) : Record :=
  let custom := match st.custom with | some b => pausedBytes b | none => (old.map (·.custom)).getD []
  match old with
  | some p => { p with assets := st.assets, feeRate := st.feeRate, admin := st.admin, custom }
  | none =>
    let name := match m with | .request (.init r) => r.name | _ => []
    { mint := st.mint, assets := st.assets, signer := st.signer, nonce := st.nonce, params := [], name
      lqdVault := st.lqdVault, initVault := st.initVault, feeRate := st.feeRate, admin := st.admin, custom }

theorem custom_enc (b : Bool) : customCodec.enc b = pausedBytes b := rfl

theorem put_eq (m : PoolMsg) (p : Record) (st : PoolState) : p.put st = m.record (some p) st := by
  unfold Record.put PoolMsg.record
  cases st.custom <;> rfl

theorem new_eq (r : InitRequest) (st : PoolState) : newRecord r st = (PoolMsg.request (.init r)).record none st := by
  unfold newRecord Record.put PoolMsg.record
  cases st.custom <;> rfl

/-- An untouched pool has the same record. -/
theorem record_same (m : PoolMsg) (p : Record) : m.record (some p) p.view = p := by
  have : (match p.view.custom with | some b => pausedBytes b | none => p.custom) = p.custom := by
    cases h : p.view.custom with
    | none => rfl
    | some b => exact (custom_all.1 h).symm
  unfold PoolMsg.record
  simp only [Option.map_some, Option.getD_some, this]
  rfl

/-- The mint of the pool token: recorded, or given as second account. -/
def mintOf (old : Option Record) (accts : List AccMeta) : Nat :=
  match old with
  | some p => p.mint
  | none => (accts.map (·.key)).getD 1 0

/-- The chain after a message. -/
def PoolChain.after (c : PoolChain) (a m : Nat) (w : World) (p : Record) : PoolChain where
  accs := setData c.accs a (recordBytes p ++ (c.accs a).data.drop (recordBytes p).length)
  toks := w.toks
  supply := fun x => if x = m then w.supply else c.supply x
  minter := fun x => if x = m then w.minter else c.minter x

theorem save_after {c c' : PoolChain} {a m : Nat} {w : World} {p : Record} :
    (c.putWorld m w).save a p = .ok c' ↔ (recordBytes p).length ≤ (c.accs a).data.length ∧ c' = PoolChain.after c a m w p := by
  unfold PoolChain.save
  constructor
  · intro h
    obtain ⟨d, h1, h⟩ := bind_ok h
    cases h
    obtain ⟨e1, rfl⟩ := pool_save_iff.1 h1
    exact ⟨e1, rfl⟩
  · rintro ⟨h1, rfl⟩
    show (Pool.saveState p (c.accs a).data >>= _) = _
    rw [pool_save_iff.2 ⟨h1, rfl⟩]
    rfl

theorem put_same (c : PoolChain) (m : Nat) : c.putWorld m (c.world m) = c := by
  have h1 : (fun x => if x = m then c.supply m else c.supply x) = c.supply := by
    funext x; split <;> simp_all
  have h2 : (fun x => if x = m then c.minter m else c.minter x) = c.minter := by
    funext x; split <;> simp_all
  unfold PoolChain.putWorld PoolChain.world
  simp only [h1, h2]

theorem setData_id (W : Accs) (a : Nat) : setData W a (W a).data = W := by
  funext x
  unfold setData
  split
  · rename_i e; rw [e]
  · rfl

theorem after_same {c : PoolChain} {a : Nat} {p : Record} (h : Pool.getState (c.accs a).data = .ok (some p)) :
    PoolChain.after c a p.mint (c.world p.mint) p = c ∧ (recordBytes p).length ≤ (c.accs a).data.length := by
  obtain ⟨h1, h2⟩ := pool_save_iff.1 (pool_save_same h)
  refine ⟨?_, h1⟩
  have h3 := put_same c p.mint
  have : PoolChain.after c a p.mint (c.world p.mint) p = { c.putWorld p.mint (c.world p.mint) with accs := setData c.accs a (c.accs a).data } := by
    unfold PoolChain.after
    rw [← h2]
    rfl
  rw [this, h3, setData_id]

/-- C72. The program on bytes: a call succeeds exactly if it names an account of the program, its data are those of a
message, the account is blank or holds a pool, the message succeeds on the decoded pool, and the new record fits. Then the
tokens move as on the decoded pool and the account holds the new record. -/
theorem pool_entry {E : PoolEnv} {k : PoolKind} {c c' : PoolChain} {accts : List AccMeta} {d : List UInt8} :
    poolEntry E k c accts d = .ok c' ↔
      ∃ a l m old st w, accts = a :: l ∧ (c.accs a.key).owned = true ∧ PoolMsg.Fits m ∧ d = m.bytes ∧
        Pool.getState (c.accs a.key).data = .ok old ∧
        Pool.process E k (old.map Record.view) (c.world (mintOf old accts)) accts m.req = .ok (some st, w) ∧
        (recordBytes (m.record old st)).length ≤ (c.accs a.key).data.length ∧
        c' = PoolChain.after c a.key (mintOf old accts) w (m.record old st) := by
  constructor
  · intro h
    unfold poolEntry at h
    split at h
    · cases h
    rename_i a l
    split at h
    case isFalse => cases h
    rename_i ho
    split at h
    · rename_i hd
      split at h
      case h_2 => cases h
      rename_i r hr
      have hrec : received d = some (.request r) := by
        unfold received; rw [if_pos hd, hr]; rfl
      obtain ⟨f1, f2⟩ := pool_received.1 hrec
      refine ⟨a, l, .request r, ?_⟩
      unfold processRequest at h
      obtain ⟨old, h1, h⟩ := bind_ok h
      cases old with
      | none =>
        cases r with
        | init r =>
          simp only at h
          obtain ⟨st, h2, h⟩ := bind_ok h
          rw [← put_same c (mintOf none (a :: l)), new_eq, save_after] at h
          refine ⟨none, st, _, rfl, ho, f1, f2, h1, ?_, h.1, h.2⟩
          simp only [Option.map_none, Pool.process, PoolMsg.req]
          rw [show initPool E k (c.world (mintOf none (a :: l))) (a :: l) ⟨r.nonce, r.assets, r.feeRate⟩ = .ok st from h2]
          rfl
        | getBasket act => cases h
        | exec act => cases h
      | some p =>
        cases r with
        | init r => cases h
        | getBasket act =>
          simp only at h
          obtain ⟨qs, h2, h⟩ := bind_ok h
          cases h
          obtain ⟨g1, g2⟩ := after_same h1
          refine ⟨some p, p.view, c.world p.mint, rfl, ho, f1, f2, h1, ?_, ?_⟩
          · simp only [Option.map_some, Pool.process, PoolMsg.req, mintOf]
            rw [h2]; rfl
          · rw [record_same]; exact ⟨g2, g1.symm⟩
        | exec act =>
          simp only at h
          obtain ⟨w, h2, h⟩ := bind_ok h
          rw [save_after] at h
          refine ⟨some p, p.view, w, rfl, ho, f1, f2, h1, ?_, ?_⟩
          · simp only [Option.map_some, Pool.process, PoolMsg.req, mintOf]
            rw [h2]; rfl
          · rw [record_same]; exact h
    · rename_i hd
      unfold processForeign at h
      split at h
      · cases h
      split at h
      case h_2 => cases h
      rename_i p rest ix hp hx
      have hrec : received d = some (.admin ix) := by
        unfold received; rw [if_neg hd, hx]; rfl
      obtain ⟨f1, f2⟩ := pool_received.1 hrec
      obtain ⟨⟨st, w⟩, h1, h⟩ := bind_ok h
      simp only at h
      rw [put_eq (.admin ix), save_after] at h
      have hg : Pool.getState (c.accs a.key).data = .ok (some p) := by
        obtain ⟨g1, g2⟩ := lawful_record.canon _ _ _ hp
        exact (pool_read.2 p).2 ⟨(record_ok p).1 g1, rest, by rw [← record_bytes]; exact g2⟩
      refine ⟨a, l, .admin ix, some p, st, w, rfl, ho, f1, f2, hg, ?_, h.1, h.2⟩
      simp only [Option.map_some, Pool.process, PoolMsg.req, mintOf]
      rw [h1]; rfl
  · rintro ⟨a, l, m, old, st, w, rfl, ho, f1, f2, hg, hp, hl, rfl⟩
    have hrec := pool_received.2 ⟨f1, f2⟩
    unfold poolEntry
    simp only [ho, if_true]
    unfold received at hrec
    split at hrec
    · rename_i hd
      rw [if_pos hd]
      obtain ⟨r, hr, rfl⟩ := Option.map_eq_some_iff.1 hrec
      rw [hr]
      simp only
      unfold processRequest
      rw [hg]
      show (match old with | none => _ | some p => _) = _
      cases old with
      | none =>
        cases r with
        | init r =>
          simp only [Option.map_none, Pool.process, PoolMsg.req] at hp
          obtain ⟨st', h1, h2⟩ := bind_ok hp
          have h2 := Except.ok.inj h2
          simp only [Prod.mk.injEq, Option.some.injEq] at h2
          obtain ⟨rfl, rfl⟩ := h2
          rw [← new_eq] at hl ⊢
          simp only
          rw [show initPool E k (c.world (((a :: l).map (·.key)).getD 1 0)) (a :: l) ⟨r.nonce, r.assets, r.feeRate⟩ = .ok st' from h1]
          have := (save_after (c := c) (a := a.key) (m := mintOf none (a :: l)) (w := c.world (mintOf none (a :: l)))
            (p := newRecord r st')).2 ⟨hl, rfl⟩
          rw [put_same] at this
          exact this
        | getBasket act => cases hp
        | exec act => cases hp
      | some p =>
        cases r with
        | init r => cases hp
        | getBasket act =>
          simp only [Option.map_some, Pool.process, PoolMsg.req, mintOf] at hp
          obtain ⟨qs, h1, h2⟩ := bind_ok hp
          cases h2
          simp only
          rw [h1, record_same]
          exact congrArg Except.ok (after_same hg).1.symm
        | exec act =>
          simp only [Option.map_some, Pool.process, PoolMsg.req, mintOf] at hp
          obtain ⟨w', h1, h2⟩ := bind_ok hp
          cases h2
          simp only
          rw [h1, record_same]
          rw [record_same] at hl
          exact save_after.2 ⟨hl, rfl⟩
    · rename_i hd
      rw [if_neg hd]
      obtain ⟨ix, hx, rfl⟩ := Option.map_eq_some_iff.1 hrec
      unfold processForeign
      cases old with
      | none => cases hp
      | some p =>
        cases k with
        | simple => cases hp
        | admin =>
          simp only [Option.map_some, Pool.process, PoolMsg.req, mintOf] at hp
          obtain ⟨⟨st', w'⟩, h1, h2⟩ := bind_ok hp
          cases h2
          obtain ⟨g1, rest, g2⟩ := (pool_read.2 p).1 hg
          have hdec : recordCodec.dec (c.accs a.key).data = some (p, rest) := by
            rw [g2, ← record_bytes]
            exact lawful_record.back p rest ((record_ok p).2 g1)
          simp only [hdec, hx]
          rw [h1]
          show PoolChain.save _ _ _ = _
          rw [put_eq (.admin ix)]
          exact save_after.2 ⟨hl, rfl⟩

/-! ### A pool on bytes -/

namespace PoolBytesDemo

/-- Account 4 is the program's, blank, with room to spare. -/
def c : PoolChain where
  accs := fun a => if a = 4 then ⟨true, true, zeros 500⟩ else ⟨false, true, []⟩
  toks := PoolDemo.w.toks
  supply := fun m => if m = 1 then 100 else 0
  minter := fun m => if m = 1 then some 9 else none

def initAccts : List AccMeta :=
  [⟨4, false⟩, ⟨1, false⟩, ⟨20, false⟩, ⟨21, false⟩, ⟨9, false⟩, ⟨40, false⟩, ⟨41, false⟩, ⟨6, false⟩]

def init : PoolMsg := .request (.init ⟨0, 2, [112, 195, 164], 2500, []⟩)
def create : PoolMsg := .request (.exec (.create 33))

def run (accts : List AccMeta) (m : PoolMsg) (c : PoolChain) : Option PoolChain :=
  match poolEntry PoolDemo.E .simple c accts m.bytes with
  | .ok c' => some c'
  | .error _ => none

def c1 : Option PoolChain := run initAccts init c
def c2 : Option PoolChain := c1.bind (run PoolDemo.accts create)

/-- A pool is initialised and used, all on bytes; a second initialisation and a longer message are refused. -/
example : init.Fits ∧ create.Fits ∧
    c1.map (fun c => (Pool.getState (c.accs 4).data).toOption) = some (some (some
      ⟨1, [⟨2, 20⟩, ⟨3, 21⟩], 9, 0, [], [112, 195, 164], 40, 41, 2500, none, []⟩)) ∧
    c2.map (fun c => (bal c.toks 20, bal c.toks 21, bal c.toks 32, bal c.toks 40, c.supply 1)) = some (1330, 1034, 42, 1, 133) ∧
    (c1.bind (run initAccts init)).isNone = true ∧
    (c1.map fun c => (poolEntry PoolDemo.E .simple c PoolDemo.accts (create.bytes ++ [0])).toOption.isNone) = some true := by
  refine ⟨⟨by decide, by decide, ⟨by decide, [112, 228], by unfold Utf8.Scalar; decide, rfl⟩, by decide, by decide⟩, (by decide : (33 : Nat) < W64), ?_, ?_, ?_, ?_⟩ <;>
    decide +kernel

end PoolBytesDemo

end Serum.Props
