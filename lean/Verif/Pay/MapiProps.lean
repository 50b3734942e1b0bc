import Verif.Pay.Mapi
import Verif.Pay.EnvelopeProps
import Verif.Pay.JsonEnvelopeProps

/-
C119: fee quotes of the merchant API.  C120: answers about transactions.  C121: what a client of the merchant API accepts and
what it makes of it.  C122: what it sends.
-/

namespace Verif.Pay.Mapi

open Verif Verif.Net Verif.Text Verif.Sig Verif.Pay Verif.SPV

/-! ### Specification -/

namespace Spec

/-- An object says what a rate is. -/
def SaysRate (j : Json) (r : Rate) : Prop :=
  ∃ s b : Nat, j.get "satoshis".toList = some (.int s) ∧ j.get "bytes".toList = some (.int b) ∧
    r = ⟨BitVec.ofNat 64 s, BitVec.ofNat 64 b⟩ ∧ r.bytes ≠ 0

/-- An object says what a fee is. -/
def SaysFee (j : Json) (e : List Char × Fee) : Prop :=
  j.get "feeType".toList = some (.str e.1) ∧ (∃ m, j.get "miningFee".toList = some m ∧ SaysRate m e.2.mining) ∧
    ∃ r, j.get "relayFee".toList = some r ∧ SaysRate r e.2.relay

/-- An object says all that is in a fee quote. -/
structure SaysQuote (j : Json) (q : FeeQuote) : Prop where
  api : j.get "apiVersion".toList = some (.str q.apiVersion)
  timestamp : j.get "timestamp".toList = some (.str q.timestamp)
  expiry : j.get "expiryTime".toList = some (.str q.expiry)
  miner : ∃ s, j.get "minerId".toList = some (.str s) ∧ hexRead s = some q.miner
  hash : ∃ s, j.get "currentHighestBlockHash".toList = some (.str s) ∧ readReverseHex s = q.hash
  some_hash : q.hash ≠ 0
  height : ∃ n : Nat, j.get "currentHighestBlockHeight".toList = some (.int n) ∧ q.height = BitVec.ofNat 64 n
  fees : ∃ l, j.get "fees".toList = some (.arr l) ∧ List.Forall₂ SaysFee l q.fees
  once : (q.fees.map (·.1)).Nodup

/-- An object says what the status of a transaction is; of the conflicts only the first has to be one. -/
structure SaysStatus (j : Json) (s : Status) : Prop where
  txid : ∃ t, j.get "txid".toList = some (.str t) ∧ readReverseHex t = s.txid
  some_txid : s.txid ≠ 0
  result : j.get "returnResult".toList = some (.str (if s.success then "success".toList else "failure".toList))
  described : ∃ d, j.get "returnDescription".toList = some (.str d)
  description : j.get "resultDescription".toList = some (.str s.description)
  conflicts : (j.get "conflictedWith".toList = none ∧ s.conflicts = []) ∨
    ∃ l, j.get "conflictedWith".toList = some (.arr l) ∧ s.conflicts = l.map Conflict.ofJson
  first : ∀ c, s.conflicts.head? = some c → c.txid ≠ 0 ∧ c.size.toNat = c.tx.length

/-- What a JSON object says of a transaction that is asked for, but for the status itself, which is lost. -/
structure SaysQuery (j : Json) (t : TxStatus) : Prop where
  status : ∃ s, SaysStatus j s
  lost : t.status = {}
  version : j.get "apiVersion".toList = some (.str t.apiVersion)
  time : j.get "timestamp".toList = some (.str t.timestamp)
  miner : ∃ id, j.get "minerId".toList = some (.str id) ∧ hexRead id = some t.miner
  expiry : ∃ n : Nat, j.get "txSecondMempoolExpiry".toList = some (.int n) ∧ t.expiry = BitVec.ofNat 32 n
  block : ∃ h, j.get "blockHash".toList = some (.str h) ∧ readReverseHex h ≠ 0 ∧ t.blockHash = some (readReverseHex h)
  height : ∃ n : Nat, j.get "blockHeight".toList = some (.int n) ∧ t.blockHeight = some (BitVec.ofNat 32 n)
  confirmations : (j.get "confirmations".toList = none ∧ t.confirmations = none) ∨
    ∃ n : Nat, j.get "confirmations".toList = some (.int n) ∧ t.confirmations = some (BitVec.ofNat 32 n)

/-- What a JSON object says of a transaction that was sent, but for the status itself, which is lost. -/
structure SaysSubmitted (j : Json) (t : Submitted) : Prop where
  status : ∃ s, SaysStatus j s
  lost : t.status = {}
  version : j.get "apiVersion".toList = some (.str t.apiVersion)
  time : j.get "timestamp".toList = some (.str t.timestamp)
  miner : ∃ id, j.get "minerId".toList = some (.str id) ∧ hexRead id = some t.miner
  expiry : ∃ n : Nat, j.get "txSecondMempoolExpiry".toList = some (.int n) ∧ t.expiry = BitVec.ofNat 32 n
  block : ∃ h, j.get "currentHighestBlockHash".toList = some (.str h) ∧ readReverseHex h = t.hash
  some_block : t.hash ≠ 0
  height : ∃ n : Nat, j.get "currentHighestBlockHeight".toList = some (.int n) ∧ t.height = BitVec.ofNat 64 n

/-- What a JSON object says of transactions that were sent.  The hash is under another name than the one that has to be there, and only
the first transaction has to be one; whatever cannot be read is taken as an empty one. -/
structure SaysMany (j : Json) (t : SubmittedMany) : Prop where
  version : j.get "apiVersion".toList = some (.str t.apiVersion)
  time : j.get "timestamp".toList = some (.str t.timestamp)
  miner : ∃ id, j.get "minerId".toList = some (.str id) ∧ hexRead id = some t.miner
  highest : ∃ h, j.get "currentHighestBlockHash".toList = some (.str h)
  block : ∃ h, j.get "blockHash".toList = some (.str h) ∧ readReverseHex h = t.hash
  some_block : t.hash ≠ 0
  height : ∃ n : Nat, j.get "currentHighestBlockHeight".toList = some (.int n) ∧ t.height = BitVec.ofNat 64 n
  expiry : ∃ n : Nat, j.get "txSecondMempoolExpiry".toList = some (.int n) ∧ t.expiry = BitVec.ofNat 32 n
  txs : ∃ l, j.get "txs".toList = some (.arr l) ∧ List.Forall₂ (fun k s => readStatus k = .ok s) l t.txs ∧
    ∀ k, l.head? = some k → ∃ s, SaysStatus k s
  failures : ∃ n : Nat, j.get "failureCount".toList = some (.int n) ∧ t.failures = BitVec.ofNat 32 n

/-- A fee is not negative. -/
def Charged (e : List Char × Fee) : Prop := 0 ≤ e.2.mining.sats.toInt ∧ 0 ≤ e.2.relay.sats.toInt

end Spec

open Spec

/-! ### Entries -/

theorem text_iff {j : Json} {key s : List Char} : text? j key = some s ↔ j.get key = some (.str s) := by
  unfold text?
  cases j.get key with
  | none => simp
  | some v => cases v <;> simp [Json.str?]

theorem arr_iff {j : Json} {key : List Char} {l : List Json} : (j.get key).bind Json.arr? = some l ↔ j.get key = some (.arr l) := by
  cases j.get key with
  | none => simp
  | some v => cases v <;> simp [Json.arr?]

theorem nat_iff {j : Json} {key : List Char} {n : Nat} : nat? j key = some n ↔ j.get key = some (.int n) := by
  unfold nat?
  cases j.get key with
  | none => simp
  | some v =>
    cases v with
    | int m =>
      simp only [Option.some.injEq, Json.int.injEq]
      split
      · rw [Option.some.injEq]; omega
      · constructor
        · intro h; cases h
        · intro h; omega
    | _ => simp

/-! ### Fee quotes -/

theorem readRate_valid {j : Json} {r : Rate} : (readRate j = r ∧ r.valid = true) ↔ SaysRate j r := by
  unfold readRate SaysRate
  have hv : ∀ r : Rate, r.valid = true ↔ r.bytes ≠ 0 := fun r => by simp [Rate.valid]
  rw [hv]
  cases hs : nat? j "satoshis".toList with
  | none =>
    simp only
    constructor
    · rintro ⟨rfl, h⟩
      exact absurd rfl h
    · rintro ⟨s, b, h1, -⟩
      rw [← nat_iff, hs] at h1
      cases h1
  | some s =>
    cases hb : nat? j "bytes".toList with
    | none =>
      simp only
      constructor
      · rintro ⟨rfl, h⟩
        exact absurd rfl h
      · rintro ⟨s, b, -, h1, -⟩
        rw [← nat_iff, hb] at h1
        cases h1
    | some b =>
      simp only
      constructor
      · rintro ⟨rfl, h⟩
        exact ⟨s, b, nat_iff.1 hs, nat_iff.1 hb, rfl, h⟩
      · rintro ⟨s', b', h1, h2, rfl, h⟩
        rw [← nat_iff, hs, Option.some.injEq] at h1
        rw [← nat_iff, hb, Option.some.injEq] at h2
        subst h1 h2
        exact ⟨rfl, h⟩

theorem readFee_iff {j : Json} {e : List Char × Fee} : readFee j = some e ↔ SaysFee j e := by
  unfold readFee SaysFee
  cases hk : text? j "feeType".toList with
  | none =>
    simp only [reduceCtorEq, false_iff]
    rintro ⟨h, -⟩
    rw [← text_iff, hk] at h
    cases h
  | some k =>
    rw [text_iff] at hk
    rw [hk]
    cases hm : j.get "miningFee".toList with
    | none => simp
    | some m =>
      cases hr : j.get "relayFee".toList with
      | none => simp
      | some r =>
        simp only [Option.some.injEq, Json.str.injEq, exists_eq_left']
        rw [← readRate_valid, ← readRate_valid]
        obtain ⟨k', m', r'⟩ := e
        constructor
        · intro h
          split at h
          · rename_i hv
            rw [Bool.and_eq_true] at hv
            rw [Option.some.injEq] at h
            cases h
            exact ⟨rfl, ⟨rfl, hv.1⟩, rfl, hv.2⟩
          · cases h
        · rintro ⟨rfl, ⟨rfl, h1⟩, rfl, h2⟩
          simp only at h1 h2
          rw [h1, h2]
          rfl

theorem readFees_iff : ∀ (l : List Json) (got r : List (List Char × Fee)), (got.map (·.1)).Nodup →
    (readFees got l = .ok (some r) ↔ ∃ es, r = got ++ es ∧ List.Forall₂ SaysFee l es ∧ (r.map (·.1)).Nodup)
  | [], got, r, hg => by
    rw [readFees]
    constructor
    · intro h
      cases h
      exact ⟨[], by simp, .nil, hg⟩
    · rintro ⟨es, rfl, h, -⟩
      cases h
      simp
  | j :: l, got, r, hg => by
    rw [readFees]
    cases he : readFee j with
    | none =>
      constructor
      · intro h
        cases h
      · rintro ⟨es, -, h, -⟩
        cases h with
        | cons h1 _ =>
          rw [← readFee_iff, he] at h1
          cases h1
    | some e =>
      simp only
      split
      · rename_i ha
        constructor
        · intro h; cases h
        · rintro ⟨es, rfl, h, hn⟩
          cases h with
          | cons h1 _ =>
            rw [← readFee_iff, he, Option.some.injEq] at h1
            subst h1
            rw [List.any_eq_true] at ha
            obtain ⟨x, hx, hxe⟩ := ha
            rw [decide_eq_true_eq] at hxe
            rw [List.map_append, List.nodup_append] at hn
            exact absurd hxe (hn.2.2 x.1 (List.mem_map_of_mem hx) e.1 (by simp))
      · rename_i ha
        have hg' : ((got ++ [e]).map (·.1)).Nodup := by
          rw [List.map_append, List.nodup_append]
          refine ⟨hg, by simp, ?_⟩
          intro a hm b hb
          obtain ⟨x, hx, rfl⟩ := List.mem_map.1 hm
          simp only [List.map_cons, List.map_nil, List.mem_singleton] at hb
          subst hb
          intro hxe
          apply ha
          rw [List.any_eq_true]
          exact ⟨x, hx, by simpa using hxe⟩
        rw [readFees_iff l (got ++ [e]) r hg']
        constructor
        · rintro ⟨es, rfl, h, hn⟩
          exact ⟨e :: es, by simp, .cons (readFee_iff.1 he) h, hn⟩
        · rintro ⟨es, rfl, h, hn⟩
          cases h with
          | cons h1 h2 =>
            rename_i e' es'
            rw [← readFee_iff, he, Option.some.injEq] at h1
            subst h1
            exact ⟨es', by simp, h2, hn⟩

/-- **C119** A fee quote, other than the empty one, is read from a JSON value just if that says all that is in the quote: the miner,
the block, and each fee, with a number of bytes that is not zero, once. -/
theorem C119_read_iff (j : Json) (q : FeeQuote) : (FeeQuote.ofJson j = .ok q ∧ q ≠ {}) ↔ SaysQuote j q := by
  constructor
  · rintro ⟨h, hq⟩
    unfold FeeQuote.ofJson at h
    split at h
    · rename_i api ts ex id hash height fees h1 h2 h3 h4 h5 h6 h7
      split at h
      · cases h
      · cases h; exact absurd rfl hq
      · rename_i f hf
        split at h
        · cases h; exact absurd rfl hq
        · rename_i pk hpk
          split at h
          · cases h; exact absurd rfl hq
          · rename_i hh
            cases h
            obtain ⟨es, he, h8, h9⟩ := (readFees_iff fees [] f (by simp)).1 hf
            rw [List.nil_append] at he
            subst he
            exact ⟨text_iff.1 h1, text_iff.1 h2, text_iff.1 h3, ⟨id, text_iff.1 h4, hpk⟩, ⟨hash, text_iff.1 h5, rfl⟩, hh,
              ⟨height, nat_iff.1 h6, rfl⟩, ⟨fees, arr_iff.1 h7, h8⟩, h9⟩
    · cases h; exact absurd rfl hq
  · intro h
    obtain ⟨api, ts, ex, pk, hash, height, fees⟩ := q
    obtain ⟨h1, h2, h3, ⟨id, h4, h4'⟩, ⟨hs, h5, h5'⟩, h6, ⟨n, h7, h7'⟩, ⟨l, h8, h8'⟩, h9⟩ := h
    simp only at h1 h2 h3 h4' h5' h6 h7' h8' h9
    refine ⟨?_, fun e => h6 (congrArg FeeQuote.hash e)⟩
    unfold FeeQuote.ofJson
    rw [text_iff.2 h1, text_iff.2 h2, text_iff.2 h3, text_iff.2 h4, text_iff.2 h5, nat_iff.2 h7, arr_iff.2 h8]
    simp only
    rw [(readFees_iff l [] fees (by simp)).2 ⟨fees, rfl, h8', h9⟩, h4']
    simp only
    rw [if_neg (by rw [h5']; exact h6), h5', h7']

theorem rate_says {r : Rate} (h : r.valid = true) : SaysRate (writeRate r) r ↔ 0 ≤ r.sats.toInt := by
  unfold SaysRate
  have e1 : (writeRate r).get "satoshis".toList = some (.int r.sats.toInt) := rfl
  have e2 : (writeRate r).get "bytes".toList = some (.int r.bytes.toNat) := rfl
  rw [e1, e2]
  simp only [Option.some.injEq, Json.int.injEq]
  constructor
  · rintro ⟨s, b, h1, -⟩
    omega
  · intro h0
    refine ⟨r.sats.toInt.toNat, r.bytes.toNat, by omega, rfl, ?_, by simpa [Rate.valid] using h⟩
    obtain ⟨s, b⟩ := r
    simp only at h0 ⊢
    have : BitVec.ofNat 64 s.toInt.toNat = s := by
      apply BitVec.eq_of_toNat_eq
      rw [BitVec.toNat_ofNat]
      have := s.isLt
      rw [BitVec.toInt_eq_toNat_cond] at h0 ⊢
      split at h0 <;> rename_i hc
      · rw [if_pos hc]; omega
      · omega
    rw [this, BitVec.ofNat_toNat, BitVec.setWidth_eq]

theorem fee_says {e : List Char × Fee} (h : e.2.valid = true) : SaysFee (writeFee e) e ↔ Charged e := by
  unfold writeFee
  rw [if_pos h]
  rw [Fee.valid, Bool.and_eq_true] at h
  have e1 : ∀ a b c, (Json.obj [("feeType".toList, a), ("miningFee".toList, b), ("relayFee".toList, c)]).get "feeType".toList = some a :=
    fun _ _ _ => rfl
  have e2 : ∀ a b c, (Json.obj [("feeType".toList, a), ("miningFee".toList, b), ("relayFee".toList, c)]).get "miningFee".toList = some b :=
    fun _ _ _ => rfl
  have e3 : ∀ a b c, (Json.obj [("feeType".toList, a), ("miningFee".toList, b), ("relayFee".toList, c)]).get "relayFee".toList = some c :=
    fun _ _ _ => rfl
  unfold SaysFee Charged
  rw [e1, e2, e3, ← rate_says h.1, ← rate_says h.2]
  simp

theorem fees_say : ∀ l : List (List Char × Fee), (∀ e ∈ l, e.2.valid = true) → (∀ e ∈ l, Charged e) →
    List.Forall₂ SaysFee (l.map writeFee) l
  | [], _, _ => .nil
  | e :: l, h, hc => .cons ((fee_says (h e (by simp))).2 (hc e (by simp)))
      (fees_say l (fun x hx => h x (by simp [hx])) (fun x hx => hc x (by simp [hx])))

theorem readFees_uncharged : ∀ (l got : List (List Char × Fee)), (∀ e ∈ l, e.2.valid = true) → ((got ++ l).map (·.1)).Nodup →
    (∃ e ∈ l, ¬ Charged e) → readFees got (l.map writeFee) = .ok none
  | [], _, _, _, h => by simp at h
  | e :: l, got, hv, hn, hc => by
    rw [List.map_cons, readFees]
    by_cases he : Charged e
    · rw [readFee_iff.2 ((fee_says (hv e (by simp))).2 he)]
      simp only
      rw [if_neg]
      · refine readFees_uncharged l (got ++ [e]) (fun x hx => hv x (by simp [hx])) (by simpa using hn) ?_
        obtain ⟨x, hx, hx'⟩ := hc
        rcases List.mem_cons.1 hx with rfl | hx
        · exact absurd he hx'
        · exact ⟨x, hx, hx'⟩
      · intro ha
        rw [List.any_eq_true] at ha
        obtain ⟨x, hx, hxe⟩ := ha
        rw [decide_eq_true_eq] at hxe
        rw [List.map_append, List.nodup_append] at hn
        exact hn.2.2 x.1 (List.mem_map_of_mem hx) e.1 (by simp) hxe
    · cases hr : readFee (writeFee e) with
      | none => rfl
      | some e' =>
        exfalso
        rw [readFee_iff] at hr
        apply he
        rw [← fee_says (hv e (by simp))]
        have hs := hr
        unfold writeFee at hr
        rw [if_pos (hv e (by simp))] at hr
        obtain ⟨h1, ⟨m, h2, h3⟩, ⟨r, h4, h5⟩⟩ := hr
        have hb : Rate.valid e.2.mining = true ∧ Rate.valid e.2.relay = true := by
          have := hv e (by simp)
          rwa [Fee.valid, Bool.and_eq_true] at this
        cases h2
        cases h4
        rw [fee_says (hv e (by simp))]
        have c : ∀ (r r' : Rate), SaysRate (writeRate r) r' → 0 ≤ r.sats.toInt := by
          rintro r r' ⟨s, b, h, -⟩
          have e1 : (writeRate r).get "satoshis".toList = some (.int r.sats.toInt) := rfl
          rw [e1, Option.some.injEq, Json.int.injEq] at h
          omega
        exact ⟨c _ _ h3, c _ _ h5⟩

/-- **C119**, for quotes of fees that are not negative: a valid fee quote is read back as it was written.  Others that are valid are
read as the empty one, which is not. -/
theorem C119_roundtrip_partial (V : Curve) (q : FeeQuote) (hv : q.valid V = true) (hk : (q.fees.map (·.1)).Nodup) :
    ((∀ e ∈ q.fees, Charged e) → FeeQuote.ofJson (q.toJson V) = .ok q) ∧
    ((∃ e ∈ q.fees, ¬ Charged e) → FeeQuote.ofJson (q.toJson V) = .ok {}) := by
  have hf : ∀ e ∈ q.fees, e.2.valid = true := by
    simp only [FeeQuote.valid, Bool.and_eq_true] at hv
    exact List.all_eq_true.1 hv.2
  have hh : q.hash ≠ 0 := by
    simp only [FeeQuote.valid, Bool.and_eq_true, decide_eq_true_eq] at hv
    exact hv.1.1.2
  have hj : q.toJson V = .obj [("apiVersion".toList, .str q.apiVersion), ("timestamp".toList, .str q.timestamp),
    ("expiryTime".toList, .str q.expiry), ("minerId".toList, .str (hexWrite q.miner)),
    ("currentHighestBlockHash".toList, .str (writeId q.hash)), ("currentHighestBlockHeight".toList, .int q.height.toNat),
    ("fees".toList, .arr (q.fees.map writeFee))] := by rw [FeeQuote.toJson, if_pos hv]
  rw [hj]
  constructor
  · intro hc
    refine ((C119_read_iff _ q).2 ⟨rfl, rfl, rfl, ⟨_, rfl, hexRead_write _⟩, ⟨_, rfl, readReverse_write _⟩, hh, ⟨_, rfl, ?_⟩,
      ⟨_, rfl, fees_say _ hf hc⟩, hk⟩).1
    rw [BitVec.ofNat_toNat, BitVec.setWidth_eq]
  · intro hc
    have h6 : ∀ (a b c d e : Json) (n : Nat) (f : Json), nat? (.obj [("apiVersion".toList, a), ("timestamp".toList, b),
        ("expiryTime".toList, c), ("minerId".toList, d), ("currentHighestBlockHash".toList, e),
        ("currentHighestBlockHeight".toList, .int n), ("fees".toList, f)]) "currentHighestBlockHeight".toList = some n :=
      fun _ _ _ _ _ _ _ => nat_iff.2 rfl
    unfold FeeQuote.ofJson
    rw [h6, text_iff.2 rfl, text_iff.2 rfl, text_iff.2 rfl, text_iff.2 rfl, text_iff.2 rfl, arr_iff.2 rfl]
    simp only
    rw [readFees_uncharged q.fees [] hf (by simpa using hk) hc]

/-- **C119** is false of quotes with a negative fee: there is a valid one, whoever the miner is, that is read as the empty quote. -/
theorem C119_false_negative (V : Curve) (k : Bytes) (hk : V.pubValid k = true) : ∃ q : FeeQuote, q.valid V = true ∧
    FeeQuote.ofJson (q.toJson V) = .ok {} ∧ FeeQuote.valid V {} = false := by
  refine ⟨⟨"1".toList, "now".toList, "later".toList, k, 1, 1, [("standard".toList, ⟨⟨-1, 1000⟩, ⟨1, 1000⟩⟩)]⟩, ?_, ?_, rfl⟩
  · simp only [FeeQuote.valid, hk]
    rfl
  · refine (C119_roundtrip_partial V _ ?_ ?_).2 ?_
    · simp only [FeeQuote.valid, hk]
      rfl
    · simp
    · exact ⟨_, List.mem_cons_self, by unfold Charged; decide⟩

/-- **C119** is false of policy quotes: none that is read has a fee quote, or addresses for callbacks, whatever the JSON says. -/
theorem C119_false_policy (V : Curve) (j : Json) (q : PolicyQuote) (h : PolicyQuote.ofJson V j = .ok q) :
    q.quote = {} ∧ q.callbacks = [] := by
  unfold PolicyQuote.ofJson at h
  split at h
  · split at h
    · cases h
    · split at h
      · cases h; exact ⟨rfl, rfl⟩
      · split at h
        · cases h; exact ⟨rfl, rfl⟩
        · rename_i hr
          cases h
          refine ⟨rfl, ?_⟩
          unfold readAddresses at hr
          split at hr
          · cases hr; rfl
          · cases hr
  · cases h; exact ⟨rfl, rfl⟩

/-- **C119** Exactly which policies are read: those that come with a fee quote that is valid and with an empty list of callbacks. -/
theorem C119_policy_iff (V : Curve) (hV : V.pubValid [] = false) (j p : Json) (hp : p ≠ .null) :
    (∃ q, PolicyQuote.ofJson V j = .ok q ∧ q.policies = p) ↔
      j.get "policies".toList = some p ∧ j.get "callbacks".toList = some (.arr []) ∧ ∃ f, SaysQuote j f ∧ f.valid V = true := by
  constructor
  · rintro ⟨q, h, rfl⟩
    unfold PolicyQuote.ofJson at h
    split at h
    · rename_i c p h1 h2
      split at h
      · cases h
      · rename_i f hf
        split at h
        · cases h; exact absurd rfl hp
        · rename_i hv
          split at h
          · cases h; exact absurd rfl hp
          · rename_i ips hr
            cases h
            unfold readAddresses at hr
            split at hr
            · refine ⟨h2, h1, f, (C119_read_iff j f).mp ⟨hf, ?_⟩, by simpa using hv⟩
              rintro rfl
              simp [FeeQuote.valid, hV] at hv
            · cases hr
    · cases h; exact absurd rfl hp
  · rintro ⟨h1, h2, f, h3, h4⟩
    refine ⟨⟨{}, [], p⟩, ?_, rfl⟩
    unfold PolicyQuote.ofJson
    rw [h1, h2, ((C119_read_iff j f).mpr h3).1]
    simp [h4, readAddresses]

/-- The hypotheses of `C119_roundtrip_partial` hold of a quote with two fees. -/
example : let q : FeeQuote := ⟨"1.4".toList, "now".toList, "later".toList, [2], 7, 800000,
      [("standard".toList, ⟨⟨50, 1000⟩, ⟨25, 1000⟩⟩), ("data".toList, ⟨⟨5, 1000⟩, ⟨1, 1000⟩⟩)]⟩
    (q.fees.map (·.1)).Nodup ∧ (∀ e ∈ q.fees, e.2.valid = true ∧ Charged e) ∧ q.hash ≠ 0 := by
  refine ⟨by decide, ?_, by decide⟩
  unfold Charged
  decide

/-! ### The status of a transaction -/

/-- **C120** A conflict that is one is read back as it was written. -/
theorem C120_conflict (c : Conflict) : Conflict.ofJson c.toJson = c := by
  have h1 : text? c.toJson "txid".toList = some (writeId c.txid) := text_iff.2 rfl
  have h2 : nat? c.toJson "size".toList = some c.size.toNat := nat_iff.2 rfl
  have h3 : text? c.toJson "hex".toList = some (hexWrite c.tx) := text_iff.2 rfl
  unfold Conflict.ofJson
  rw [h1, h2, h3]
  simp only
  rw [hexRead_write, readReverse_write, BitVec.ofNat_toNat, BitVec.setWidth_eq]

theorem result_named (su : Bool) : ¬ ((if su = true then "success".toList else "failure".toList) ≠ "success".toList ∧
    (if su = true then "success".toList else "failure".toList) ≠ "failure".toList) := by
  cases su <;> simp

theorem conflict_valid_iff {c : Conflict} : c.valid = true ↔ c.txid ≠ 0 ∧ c.size.toNat = c.tx.length := by
  simp [Conflict.valid]

theorem readConflicts_iff : ∀ (l : List Json) (got r : List Conflict), (∀ c, got.head? = some c → c.valid = true) →
    (readConflicts got l = some r ↔ r = got ++ l.map Conflict.ofJson ∧ ∀ c, r.head? = some c → c.valid = true)
  | [], got, r, hg => by
    rw [readConflicts]
    constructor
    · intro h
      cases h
      exact ⟨by simp, hg⟩
    · rintro ⟨rfl, -⟩
      simp
  | j :: l, got, r, hg => by
    rw [readConflicts]
    have hh : ∃ c, (got ++ [Conflict.ofJson j]).head? = some c := by
      cases got with
      | nil => exact ⟨_, rfl⟩
      | cons a t => exact ⟨a, rfl⟩
    obtain ⟨c, hc⟩ := hh
    rw [hc]
    simp only
    have hr : ∀ r : List Conflict, r = got ++ (j :: l).map Conflict.ofJson → r.head? = some c := by
      rintro r rfl
      rw [← hc]
      cases got <;> rfl
    split
    · rename_i hv
      rw [readConflicts_iff l _ r (by rw [hc]; rintro _ ⟨⟩; exact hv)]
      simp
    · rename_i hv
      constructor
      · intro h; cases h
      · rintro ⟨h1, h2⟩
        exact absurd (h2 c (hr r h1)) hv

/-- **C120**, but for the other conflicts: a status, other than the empty one, is read from a JSON value just if that says so,
under the two names for the description of the result; the first conflict is one, and the others may be anything. -/
theorem C120_read_partial (j : Json) (s : Status) : (readStatus j = .ok s ∧ s ≠ {}) ↔ SaysStatus j s := by
  constructor
  · rintro ⟨h, hq⟩
    unfold readStatus at h
    split at h
    · rename_i id rr d h1 h2 h3
      split at h
      · cases h; exact absurd rfl hq
      · rename_i hrr
        split at h
        · cases h; exact absurd rfl hq
        · rename_i cw hcw
          split at h
          · cases h; exact absurd rfl hq
          · rename_i hid
            split at h
            · cases h
            · rename_i d' hd
              cases h
              have hc : ((j.get "conflictedWith".toList = none ∧ cw = []) ∨
                  ∃ l, j.get "conflictedWith".toList = some (.arr l) ∧ cw = l.map Conflict.ofJson) ∧
                  ∀ c, cw.head? = some c → c.valid = true := by
                unfold conflictsOf at hcw
                split at hcw
                · rename_i hn
                  cases hcw
                  exact ⟨.inl ⟨hn, rfl⟩, by simp⟩
                · rename_i l hl
                  obtain ⟨h4, h5⟩ := (readConflicts_iff l [] cw (by simp)).1 hcw
                  exact ⟨.inr ⟨l, hl, h4⟩, h5⟩
                · cases hcw
              refine ⟨⟨id, text_iff.1 h1, rfl⟩, hid, ?_, ⟨d, text_iff.1 h3⟩, hd, hc.1, fun c h => conflict_valid_iff.1 (hc.2 c h)⟩
              rw [text_iff.1 h2]
              simp only [decide_eq_true_eq]
              split
              · rename_i he; rw [he]
              · rename_i he
                rw [Classical.byContradiction fun hne => hrr ⟨he, hne⟩]
            · cases h
    · cases h; exact absurd rfl hq
  · intro h
    obtain ⟨tx, su, de, cw⟩ := s
    obtain ⟨⟨t, h1, h1'⟩, h2, h3, ⟨d, h4⟩, h5, h6, h7⟩ := h
    simp only at h1' h2 h3 h5 h6 h7
    refine ⟨?_, fun e => h2 (congrArg Status.txid e)⟩
    unfold readStatus
    rw [text_iff.2 h1, text_iff.2 h3, text_iff.2 h4]
    simp only
    rw [if_neg (result_named su)]
    have hcw : conflictsOf j = some cw := by
      unfold conflictsOf
      rcases h6 with ⟨h6, rfl⟩ | ⟨l, h6, h6'⟩
      · rw [h6]
      · rw [h6]
        exact (readConflicts_iff l [] cw (by simp)).2 ⟨h6', fun c h => conflict_valid_iff.2 (h7 c h)⟩
    rw [hcw]
    simp only
    rw [if_neg (by rw [h1']; exact h2), h5, h1']
    simp only
    cases su <;> rfl

theorem readStatus_valid_iff {j : Json} : (∃ s, readStatus j = .ok s ∧ s.valid = true) ↔ ∃ s, SaysStatus j s := by
  constructor
  · rintro ⟨s, h, hv⟩
    refine ⟨s, (C120_read_partial j s).1 ⟨h, ?_⟩⟩
    rintro rfl
    cases hv
  · rintro ⟨s, h⟩
    exact ⟨s, ((C120_read_partial j s).2 h).1, by simpa [Status.valid] using h.some_txid⟩

theorem natIfAny_iff {j : Json} {key : List Char} : natIfAny j key = true ↔ j.get key = none ∨ ∃ n : Nat, j.get key = some (.int n) := by
  unfold natIfAny
  rw [Bool.or_eq_true, Option.isNone_iff_eq_none, Option.isSome_iff_exists]
  simp only [nat_iff]

theorem nat_none {j : Json} {key : List Char} (h : j.get key = none) : nat? j key = none := by
  unfold nat?
  rw [h]

/-- **C120**, but for the status, which is lost: what is read of the answer to a query for a transaction, other than an empty answer, is
just what it says. -/
theorem C120_query_partial (j : Json) (t : TxStatus) : (TxStatus.ofJson j = .ok t ∧ t ≠ {}) ↔ SaysQuery j t := by
  constructor
  · rintro ⟨h, hq⟩
    unfold TxStatus.ofJson at h
    split at h
    · rename_i api ts bh height id ex h1 h2 h3 h4 h5 h6
      split at h
      · cases h; exact absurd rfl hq
      · rename_i hn
        split at h
        · cases h
        · rename_i sub hs
          split at h
          · cases h; exact absurd rfl hq
          · rename_i hv
            split at h
            · cases h; exact absurd rfl hq
            · rename_i pk hpk
              split at h
              · cases h; exact absurd rfl hq
              · rename_i hbh
                cases h
                refine ⟨readStatus_valid_iff.1 ⟨sub, hs, by simpa using hv⟩, rfl, text_iff.1 h1, text_iff.1 h2, ⟨id, text_iff.1 h5, hpk⟩,
                  ⟨ex, nat_iff.1 h6, rfl⟩, ⟨bh, text_iff.1 h3, hbh, rfl⟩, ⟨height, nat_iff.1 h4, rfl⟩, ?_⟩
                have hn' : natIfAny j "confirmations".toList = true := by simpa using hn
                rcases natIfAny_iff.1 hn' with hc | ⟨n, hc⟩
                · refine .inl ⟨hc, ?_⟩
                  simp only
                  rw [nat_none hc]
                  rfl
                · refine .inr ⟨n, hc, ?_⟩
                  simp only
                  rw [nat_iff.2 hc]
                  rfl
    · cases h; exact absurd rfl hq
  · obtain ⟨st, api, ts, pk, ex, bh, he, co⟩ := t
    rintro ⟨hst, h0, h1, h2, ⟨id, h5, hpk⟩, ⟨ex', h6, hex⟩, ⟨bh', h3, hbh, hbh'⟩, ⟨he', h4, hhe⟩, hco⟩
    simp only at h0 h1 h2 hpk hex hbh' hhe hco
    subst h0 hex hbh' hhe
    obtain ⟨s, hs, hv⟩ := readStatus_valid_iff.2 hst
    refine ⟨?_, fun e => by cases congrArg TxStatus.blockHash e⟩
    have hn : natIfAny j "confirmations".toList = true := natIfAny_iff.2 (hco.imp (·.1) fun ⟨n, h, _⟩ => ⟨n, h⟩)
    unfold TxStatus.ofJson
    rw [text_iff.2 h1, text_iff.2 h2, text_iff.2 h3, text_iff.2 h5, nat_iff.2 h4, nat_iff.2 h6]
    simp only
    rw [hn, hs]
    simp only [Bool.not_true, Bool.false_eq_true, if_false]
    rw [hv, hpk]
    simp only [Bool.not_true, Bool.false_eq_true, if_false]
    rw [if_neg hbh]
    rcases hco with ⟨hc, rfl⟩ | ⟨n, hc, rfl⟩
    · rw [nat_none hc]; rfl
    · rw [nat_iff.2 hc]; rfl

/-- **C120**, but for the status, which is lost: the same of the answer to a transaction that was sent. -/
theorem C120_submitted_partial (j : Json) (t : Submitted) : (Submitted.ofJson j = .ok t ∧ t ≠ {}) ↔ SaysSubmitted j t := by
  constructor
  · rintro ⟨h, hq⟩
    unfold Submitted.ofJson at h
    split at h
    · rename_i api ts id bh height ex h1 h2 h3 h4 h5 h6
      split at h
      · cases h
      · rename_i sub hs
        split at h
        · cases h; exact absurd rfl hq
        · rename_i hv
          split at h
          · cases h; exact absurd rfl hq
          · rename_i pk hpk
            split at h
            · cases h; exact absurd rfl hq
            · rename_i hbh
              cases h
              exact ⟨readStatus_valid_iff.1 ⟨sub, hs, by simpa using hv⟩, rfl, text_iff.1 h1, text_iff.1 h2, ⟨id, text_iff.1 h3, hpk⟩,
                ⟨ex, nat_iff.1 h6, rfl⟩, ⟨bh, text_iff.1 h4, rfl⟩, hbh, ⟨height, nat_iff.1 h5, rfl⟩⟩
    · cases h; exact absurd rfl hq
  · obtain ⟨st, api, ts, pk, ex, bh, he⟩ := t
    rintro ⟨hst, h0, h1, h2, ⟨id, h3, hpk⟩, ⟨ex', h6, hex⟩, ⟨bh', h4, hbh'⟩, hbh, ⟨he', h5, hhe⟩⟩
    simp only at h0 h1 h2 hpk hex hbh' hhe hbh
    subst h0 hex hbh' hhe
    obtain ⟨s, hs, hv⟩ := readStatus_valid_iff.2 hst
    refine ⟨?_, fun e => hbh (congrArg Submitted.hash e)⟩
    unfold Submitted.ofJson
    rw [text_iff.2 h1, text_iff.2 h2, text_iff.2 h3, text_iff.2 h4, nat_iff.2 h5, nat_iff.2 h6]
    simp only
    rw [hs]
    simp only
    rw [hv, hpk]
    simp only [Bool.not_true, Bool.false_eq_true, if_false]
    rw [if_neg hbh]

theorem readMany_iff : ∀ (l : List Json) (got r : List Status), (∀ c, got.head? = some c → c.valid = true) →
    (readMany got l = .ok (some r) ↔ (∃ m, r = got ++ m ∧ List.Forall₂ (fun k s => readStatus k = .ok s) l m) ∧
      ∀ c, r.head? = some c → c.valid = true)
  | [], got, r, hg => by
    rw [readMany]
    constructor
    · intro h
      cases h
      exact ⟨⟨[], by simp, .nil⟩, hg⟩
    · rintro ⟨⟨m, rfl, hm⟩, -⟩
      cases hm
      simp
  | j :: l, got, r, hg => by
    rw [readMany]
    cases hs : readStatus j with
    | error e =>
      simp only [reduceCtorEq, false_iff]
      rintro ⟨⟨m, -, hm⟩, -⟩
      cases hm
      rename_i h _
      rw [hs] at h
      cases h
    | ok s =>
      simp only
      have hh : ∃ c, (got ++ [s]).head? = some c := by
        cases got with
        | nil => exact ⟨_, rfl⟩
        | cons a t => exact ⟨a, rfl⟩
      obtain ⟨c, hc⟩ := hh
      rw [hc]
      simp only
      have hr : ∀ m : List Status, (got ++ s :: m).head? = some c := by
        intro m
        rw [← hc]
        cases got <;> rfl
      split
      · rename_i hv
        rw [readMany_iff l _ r (by rw [hc]; rintro _ ⟨⟩; exact hv)]
        constructor
        · rintro ⟨⟨m, rfl, hm⟩, h⟩
          exact ⟨⟨s :: m, by simp, .cons hs hm⟩, h⟩
        · rintro ⟨⟨m, rfl, hm⟩, h⟩
          cases hm
          rename_i s' m hs' hm
          rw [hs] at hs'
          cases hs'
          exact ⟨⟨m, by simp, hm⟩, h⟩
      · rename_i hv
        constructor
        · intro h; cases h
        · rintro ⟨⟨m, rfl, hm⟩, h⟩
          cases hm
          rename_i s' m hs' hm
          rw [hs] at hs'
          cases hs'
          exact absurd (h c (hr m)) hv

theorem readMany_nil_iff (l : List Json) (r : List Status) : readMany [] l = .ok (some r) ↔
    List.Forall₂ (fun k s => readStatus k = .ok s) l r ∧ ∀ k, l.head? = some k → ∃ s, SaysStatus k s := by
  rw [readMany_iff l [] r (by simp)]
  constructor
  · rintro ⟨⟨m, hm, h⟩, hv⟩
    rw [List.nil_append] at hm
    subst hm
    refine ⟨h, ?_⟩
    cases h with
    | nil => simp
    | cons h1 h2 =>
      rintro _ ⟨⟩
      exact readStatus_valid_iff.1 ⟨_, h1, hv _ rfl⟩
  · rintro ⟨h, hv⟩
    refine ⟨⟨r, rfl, h⟩, ?_⟩
    cases h with
    | nil => simp
    | cons h1 h2 =>
      rintro _ ⟨⟩
      obtain ⟨s, hs, hv'⟩ := readStatus_valid_iff.2 (hv _ rfl)
      rw [h1] at hs
      cases hs
      exact hv'

/-- **C120**, but for the names and for the transactions that are not the first: what is read of the answer to many transactions that
were sent, other than an empty answer, is just what it says. -/
theorem C120_many_partial (j : Json) (t : SubmittedMany) : (SubmittedMany.ofJson j = .ok t ∧ t ≠ {}) ↔ SaysMany j t := by
  constructor
  · rintro ⟨h, hq⟩
    unfold SubmittedMany.ofJson at h
    split at h
    · rename_i api ts id hb height ex txs fc h1 h2 h3 h4 h5 h6 h7 h8
      split at h
      · cases h
      · cases h; exact absurd rfl hq
      · rename_i sr hsr
        split at h
        · cases h; exact absurd rfl hq
        · rename_i pk hpk
          split at h
          · cases h
          · rename_i bh hbh
            split at h
            · cases h; exact absurd rfl hq
            · rename_i hz
              cases h
              exact ⟨text_iff.1 h1, text_iff.1 h2, ⟨id, text_iff.1 h3, hpk⟩, ⟨hb, text_iff.1 h4⟩, ⟨bh, hbh, rfl⟩, hz,
                ⟨height, nat_iff.1 h5, rfl⟩, ⟨ex, nat_iff.1 h6, rfl⟩, ⟨txs, arr_iff.1 h7, (readMany_nil_iff txs sr).1 hsr⟩,
                ⟨fc, nat_iff.1 h8, rfl⟩⟩
          · cases h
    · cases h; exact absurd rfl hq
  · obtain ⟨api, ts, pk, hash, height, ex, txs, fc⟩ := t
    rintro ⟨h1, h2, ⟨id, h3, hpk⟩, ⟨hb, h4⟩, ⟨bh, hbh, hz'⟩, hz, ⟨he', h5, hhe⟩, ⟨ex', h6, hex⟩, ⟨l, h7, hl⟩, ⟨fc', h8, hfc⟩⟩
    simp only at h1 h2 hpk hex hz' hhe hz hl hfc
    subst hex hz' hhe hfc
    refine ⟨?_, fun e => hz (congrArg SubmittedMany.hash e)⟩
    unfold SubmittedMany.ofJson
    rw [text_iff.2 h1, text_iff.2 h2, text_iff.2 h3, text_iff.2 h4, nat_iff.2 h5, nat_iff.2 h6, nat_iff.2 h8, arr_iff.2 h7]
    simp only
    rw [(readMany_nil_iff l txs).2 hl]
    simp only
    rw [hpk]
    simp only
    rw [hbh]
    simp only
    rw [if_neg hz]

/-- **C120** is false: what is written of a status is read as the empty one, for every status.  It is asked for
"returnDescription", and what is written is "resultDescription". -/
theorem C120_false_written (s : Status) : readStatus s.toJson = .ok {} := by
  have h : text? s.toJson "returnDescription".toList = none := by
    unfold text? Status.toJson Status.entries
    split <;> rfl
  unfold readStatus
  rw [h]
  split
  · rename_i h1; cases h1
  · rfl

/-- **C120** is false: to read what a server may send, a status with "returnDescription" as in the documents of the merchant API, is
undefined. -/
theorem C120_false_undefined (id d : List Char) (b : Bool) (h : readReverseHex id ≠ 0) :
    readStatus (.obj [("txid".toList, .str id), ("returnResult".toList, writeResult b), ("returnDescription".toList, .str d)]) =
      .error .ub := by
  unfold readStatus
  rw [text_iff.2 rfl, text_iff.2 rfl, text_iff.2 rfl]
  simp only
  rw [if_neg (by cases b <;> decide)]
  have hn : ∀ x y z : Json, (Json.obj [("txid".toList, x), ("returnResult".toList, y), ("returnDescription".toList, z)]).get
      "conflictedWith".toList = none := fun _ _ _ => rfl
  have hm : ∀ x y z : Json, (Json.obj [("txid".toList, x), ("returnResult".toList, y), ("returnDescription".toList, z)]).get
      "resultDescription".toList = none := fun _ _ _ => rfl
  unfold conflictsOf
  rw [hn, hm]
  simp only
  rw [if_neg h]

/-- **C120** is false: a conflict that is none is taken, where it is not the first. -/
theorem C120_false_conflict : ∃ (j : Json) (s : Status), readStatus j = .ok s ∧ s.valid = true ∧ ∃ c ∈ s.conflicts, c.valid = false := by
  let good : Conflict := ⟨1, 1, [0]⟩
  let bad : Conflict := ⟨0, 5, []⟩
  let s : Status := ⟨7, true, [], [good, bad]⟩
  let j : Json := .obj [("txid".toList, .str (writeId s.txid)), ("returnResult".toList, writeResult true),
    ("returnDescription".toList, .str []), ("resultDescription".toList, .str []),
    ("conflictedWith".toList, .arr (s.conflicts.map Conflict.toJson))]
  refine ⟨j, s, ?_, rfl, bad, by simp [s], rfl⟩
  refine ((C120_read_partial j s).2 ⟨⟨_, rfl, readReverse_write _⟩, by decide, rfl, ⟨[], rfl⟩, rfl, .inr ⟨_, rfl, ?_⟩, ?_⟩).1
  · rw [List.map_map]
    have : (Conflict.ofJson ∘ Conflict.toJson) = id := funext C120_conflict
    rw [this, List.map_id]
  · intro c hc
    cases hc
    exact conflict_valid_iff.1 rfl

/-- **C120** is false: of the answer to a query for a transaction, and of that to one that was sent, neither the transaction nor the
result is kept, whatever the server says; and success is never read. -/
theorem C120_false_lost (j : Json) : (∀ t, TxStatus.ofJson j = .ok t → t.status = {}) ∧ ∀ t, Submitted.ofJson j = .ok t → t.status = {} := by
  constructor
  · intro t h
    unfold TxStatus.ofJson at h
    split at h
    · split at h
      · cases h; rfl
      · split at h
        · cases h
        · split at h
          · cases h; rfl
          · split at h
            · cases h; rfl
            · split at h
              · cases h; rfl
              · cases h; rfl
    · cases h; rfl
  · intro t h
    unfold Submitted.ofJson at h
    split at h
    · split at h
      · cases h
      · split at h
        · cases h; rfl
        · split at h
          · cases h; rfl
          · split at h
            · cases h; rfl
            · cases h; rfl
    · cases h; rfl

theorem many_written (V : Curve) (t : SubmittedMany) (hv : t.valid V = true) : SubmittedMany.ofJson (t.toJson V) =
    (match readMany [] (t.txs.map Status.toJson) with
      | .error e => .error e
      | .ok none => .ok {}
      | .ok (some _) => .error .ub) := by
  have h : SubmittedMany.ofJson (t.toJson V) = (match readMany [] (t.txs.map Status.toJson) with
      | .error e => .error e
      | .ok none => .ok {}
      | .ok (some _) => match hexRead (hexWrite t.miner) with
        | none => .ok {}
        | some _ => .error .ub) := by
    unfold SubmittedMany.toJson
    rw [if_pos hv]
    unfold SubmittedMany.ofJson
    have n1 : ∀ (a b c d : Json) (n : Nat) (e f g : Json), nat? (.obj [("apiVersion".toList, a), ("timestamp".toList, b),
      ("minerId".toList, c), ("currentHighestBlockHash".toList, d), ("currentHighestBlockHeight".toList, .int n),
      ("txSecondMempoolExpiry".toList, e), ("txs".toList, f), ("failureCount".toList, g)]) "currentHighestBlockHeight".toList = some n :=
      fun _ _ _ _ _ _ _ _ => nat_iff.2 rfl
    have n2 : ∀ (a b c d e : Json) (n : Nat) (f g : Json), nat? (.obj [("apiVersion".toList, a), ("timestamp".toList, b),
      ("minerId".toList, c), ("currentHighestBlockHash".toList, d), ("currentHighestBlockHeight".toList, e),
      ("txSecondMempoolExpiry".toList, .int n), ("txs".toList, f), ("failureCount".toList, g)]) "txSecondMempoolExpiry".toList = some n :=
      fun _ _ _ _ _ _ _ _ => nat_iff.2 rfl
    have n3 : ∀ (a b c d e f g : Json) (n : Nat), nat? (.obj [("apiVersion".toList, a), ("timestamp".toList, b),
      ("minerId".toList, c), ("currentHighestBlockHash".toList, d), ("currentHighestBlockHeight".toList, e),
      ("txSecondMempoolExpiry".toList, f), ("txs".toList, g), ("failureCount".toList, .int n)]) "failureCount".toList = some n :=
      fun _ _ _ _ _ _ _ _ => nat_iff.2 rfl
    have n4 : ∀ (a b c d e f g h : Json), (Json.obj [("apiVersion".toList, a), ("timestamp".toList, b),
      ("minerId".toList, c), ("currentHighestBlockHash".toList, d), ("currentHighestBlockHeight".toList, e),
      ("txSecondMempoolExpiry".toList, f), ("txs".toList, g), ("failureCount".toList, h)]).get "blockHash".toList = none :=
      fun _ _ _ _ _ _ _ _ => rfl
    rw [n1, n2, n3, n4, text_iff.2 rfl, text_iff.2 rfl, text_iff.2 rfl, text_iff.2 rfl, arr_iff.2 rfl]
    simp only
    rw [hexRead_write]
    rcases readMany [] (List.map Status.toJson t.txs) with e | _ | l <;> rfl
  rw [h, hexRead_write]

/-- **C120** is false: what is written of such answers is read as an empty one, for all of them; where many were sent it is not even
that, but undefined, if there is no transaction in it. -/
theorem C120_false_answers (V : Curve) : (∀ t : TxStatus, TxStatus.ofJson t.toJson = .ok {}) ∧
    (∀ t : Submitted, Submitted.ofJson t.toJson = .ok {}) ∧
    (∀ t : SubmittedMany, t.valid V = true → t.txs ≠ [] → SubmittedMany.ofJson (t.toJson V) = .ok {}) ∧
    ∀ t : SubmittedMany, t.valid V = true → t.txs = [] → SubmittedMany.ofJson (t.toJson V) = .error .ub := by
  refine ⟨fun t => ?_, fun t => ?_, fun t hv hn => ?_, fun t hv hn => ?_⟩
  · have h : text? t.toJson "blockHash".toList = none := by
      unfold text? TxStatus.toJson Status.entries
      split
      · split <;> (try split) <;> cases t.confirmations <;> rfl
      · rfl
    unfold TxStatus.ofJson
    rw [h]
    generalize text? t.toJson "apiVersion".toList = a
    generalize text? t.toJson "timestamp".toList = b
    cases a <;> cases b <;> rfl
  · unfold Submitted.toJson
    split
    · have h : readStatus (Json.obj (t.status.entries ++
        [("apiVersion".toList, .str t.apiVersion), ("timestamp".toList, .str t.timestamp), ("minerId".toList, .str (hexWrite t.miner)),
          ("currentHighestBlockHash".toList, .str (writeId t.hash)), ("currentHighestBlockHeight".toList, .int t.height.toNat),
          ("txSecondMempoolExpiry".toList, .int t.expiry.toNat)])) = .ok {} := by
        unfold readStatus
        have h' : text? (Json.obj (t.status.entries ++
          [("apiVersion".toList, .str t.apiVersion), ("timestamp".toList, .str t.timestamp), ("minerId".toList, .str (hexWrite t.miner)),
            ("currentHighestBlockHash".toList, .str (writeId t.hash)), ("currentHighestBlockHeight".toList, .int t.height.toNat),
            ("txSecondMempoolExpiry".toList, .int t.expiry.toNat)])) "returnDescription".toList = none := by
          unfold text? Status.entries
          split <;> rfl
        rw [h']
        split
        · rename_i h1; cases h1
        · rfl
      unfold Submitted.ofJson
      rw [h]
      split
      · rfl
      · rfl
    · rfl
  · have hj : SubmittedMany.ofJson (t.toJson V) = (match readMany [] (t.txs.map Status.toJson) with
      | .error e => .error e
      | .ok none => .ok {}
      | .ok (some _) => .error .ub) := many_written V t hv
    rw [hj]
    cases ht : t.txs with
    | nil => exact absurd ht hn
    | cons s l =>
      rw [List.map_cons, readMany, C120_false_written]
      rfl
  · rw [many_written V t hv, hn]
    rfl

/-- The hypotheses of `C120_false_undefined` hold of an id. -/
example : readReverseHex (writeId 7) ≠ 0 := by rw [readReverse_write]; decide

/-! ### What a client accepts -/

/-- **C121** A call gives the JSON value that a server sent just if the status is that of success, it is said to be JSON and is, and
it is an envelope; and where there is a key, the signature is one of what the envelope carries by that key.
Missing: that there is a signature, and that what is signed is given (`C121_false_unsigned`, `C121_false_response`). -/
theorem C121_call_iff_partial (T : TextCodec) (H : Bytes → BitVec 256) (V : Curve) (parse : List Char → Option Json) (r : Http) (j : Json) :
    call T H V parse r = .ok j ↔ (200 ≤ r.status ∧ r.status < 300) ∧ r.contentType = some "application/json".toList ∧
      parse r.body = some j ∧ (JsonEnvelope.ofJson j).valid = true ∧ ∀ k, (JsonEnvelope.ofJson j).publicKey = some k →
        ∃ s b, (JsonEnvelope.ofJson j).signature = some s ∧ Carries T (JsonEnvelope.ofJson j) b ∧ V.verify k (H b) s = true := by
  rw [← C67_verified_iff]
  unfold call
  constructor
  · intro h
    split at h
    · cases h
    · rename_i hs
      split at h
      · cases h
      · rename_i t ht
        split at h
        · cases h
        · rename_i htt
          split at h
          · cases h
          · rename_i j' hj
            split at h
            · rename_i hv
              cases h
              exact ⟨by omega, by rw [ht, Classical.byContradiction htt], hj, hv⟩
            · cases h
  · rintro ⟨h1, h2, h3, h4⟩
    rw [if_neg (by omega), h2]
    simp only
    rw [if_neg (by simp), h3]
    simp only
    rw [if_pos h4]

/-- An envelope with neither key nor signature, of anything. -/
def unsigned (payload : List Char) : Json :=
  .obj [("payload".toList, .str payload), ("encoding".toList, .str "UTF-8".toList), ("mimetype".toList, .str "application/json".toList)]

/-- **C121** is false: that an answer is given does not mean that anyone signed it.  An envelope of anything, without key and
signature, is given. -/
theorem C121_false_unsigned (T : TextCodec) (H : Bytes → BitVec 256) (V : Curve) (parse : List Char → Option Json) (payload body : List Char)
    (h : parse body = some (unsigned payload)) :
    call T H V parse ⟨200, some "application/json".toList, body⟩ = .ok (unsigned payload) := by
  have he : JsonEnvelope.ofJson (unsigned payload) = ⟨payload, .utf8, "application/json".toList, none, none⟩ := rfl
  rw [C121_call_iff_partial, he]
  refine ⟨by simp, rfl, h, rfl, ?_⟩
  intro k hk
  cases hk

/-- **C121** is false: whatever kind of response is read, from whatever JSON value, it holds nothing of what was sent, and neither a
key nor a signature; so it is not said to be signed. -/
theorem C121_false_response {T : Type} (empty : T) (read : Json → Except MErr T) (j : Json) (r : Response T)
    (h : Response.ofJson empty read j = .ok r) : r.value = empty ∧ r.key = none ∧ r.signature = none := by
  unfold Response.ofJson at h
  cases hr : read j with
  | error e => rw [hr] at h; cases h
  | ok v => rw [hr] at h; cases h; exact ⟨rfl, rfl, rfl⟩

/-- **C121** is false: an SPV envelope with responses of the merchant API is never read, whatever the responses are, if it is
defined what they are read as: the result is the empty envelope. -/
theorem C121_false_envelope (C : MapiCodec (Response TxStatus)) (hok : ∀ r, C.ok r = r.value.valid)
    (hread : ∀ j r, Response.ofJson {} TxStatus.ofJson j = .ok r → C.read j = r)
    (depth : Nat) (j : Json) (l : List Json) (hj : j.get "mapiResponses".toList = some (.arr l)) (hl : l ≠ [])
    (hd : ∀ k ∈ l, ∃ r, Response.ofJson {} TxStatus.ofJson k = .ok r) :
    Envelope.ofJson C depth j = .ok ⟨none, [], [], .nil⟩ := by
  have h : readMapi C j = none := by
    unfold readMapi
    rw [hj]
    simp only
    rw [if_neg]
    cases l with
    | nil => exact absurd rfl hl
    | cons a t =>
      obtain ⟨r, hr⟩ := hd a (by simp)
      have hv : C.ok (C.read a) = false := by
        rw [hread a r hr, hok, (C121_false_response _ _ _ _ hr).1]
        rfl
      simp [hv]
  unfold Envelope.ofJson
  rw [h]
  cases readHexAt j "rawTx".toList with
  | none => rfl
  | some raw =>
    cases j.get "inputs".toList with
    | none => rfl
    | some v => cases v <;> rfl

/-- The hypotheses of `C121_false_envelope` hold of the codec of the responses, and of an envelope with a response. -/
example : ∃ C : MapiCodec (Response TxStatus), (∀ r, C.ok r = r.value.valid) ∧
    (∀ j r, Response.ofJson {} TxStatus.ofJson j = .ok r → C.read j = r) ∧
    ∃ r, Response.ofJson {} TxStatus.ofJson (unsigned []) = .ok r := by
  refine ⟨⟨fun r => r.value.valid, fun _ => .null, fun j => match Response.ofJson {} TxStatus.ofJson j with
    | .ok r => r
    | .error _ => ⟨{}, none, none⟩⟩, fun _ => rfl, ?_, ⟨{}, none, none⟩, rfl⟩
  intro j r h
  simp only [h]

/-! ### What a client sends -/

theorem boolText_inj : ∀ {a b : Bool}, boolText a = boolText b → a = b := by decide

/-- The value under a key in a list. -/
def under (key : List Char) (l : List (List Char × List Char)) : Option (List Char) := (l.find? fun e => e.1 = key).map (·.2)

/-- **C122** The parameters of a submission can be told from the entries in the query, and so from the ones in the JSON. -/
theorem C122_params (p q : Params) (h : p.entries = q.entries) : p = q := by
  have e : ∀ p : Params, under "callbackUrl".toList p.entries = p.callbackUrl ∧ under "callbackToken".toList p.entries = p.callbackToken ∧
      under "merkleProof".toList p.entries = p.merkleProof.map boolText ∧ under "merkleFormat".toList p.entries = p.merkleFormat ∧
      under "dsCheck".toList p.entries = p.dsCheck.map boolText ∧ under "callbackEncryption".toList p.entries = p.callbackEncryption := by
    rintro ⟨a, b, c, d, e, f⟩
    refine ⟨?_, ?_, ?_, ?_, ?_, ?_⟩ <;> simp only [Params.entries] <;>
      cases a <;> cases b <;> cases c <;> cases d <;> cases e <;> cases f <;> rfl
  obtain ⟨a1, a2, a3, a4, a5, a6⟩ := e p
  obtain ⟨b1, b2, b3, b4, b5, b6⟩ := e q
  rw [h] at a1 a2 a3 a4 a5 a6
  have inj : ∀ {a b : Option Bool}, a.map boolText = b.map boolText → a = b := by decide
  obtain ⟨p1, p2, p3, p4, p5, p6⟩ := p
  obtain ⟨q1, q2, q3, q4, q5, q6⟩ := q
  simp only at a1 a2 a3 a4 a5 a6 b1 b2 b3 b4 b5 b6
  rw [← a1.symm.trans b1, ← a2.symm.trans b2, inj (a3.symm.trans b3), ← a4.symm.trans b4, inj (a5.symm.trans b5), ← a6.symm.trans b6]

theorem hexWrite_inj' {a b : Bytes} (h : hexWrite a = hexWrite b) : a = b := by
  have := congrArg hexRead h
  rw [hexRead_write, hexRead_write, Option.some.injEq] at this
  exact this

theorem submission_inj (s t : Submission) (h : s.toJson = t.toJson) : s = t := by
  unfold Submission.toJson at h
  simp only [Json.obj.injEq, List.cons.injEq, Prod.mk.injEq, Json.str.injEq, true_and] at h
  have : ∀ a b : List (List Char × List Char), a.map (fun e => (e.1, Json.str e.2)) = b.map (fun e => (e.1, Json.str e.2)) → a = b := by
    intro a
    induction a with
    | nil => intro b hb; cases b with
      | nil => rfl
      | cons => cases hb
    | cons x a ih => intro b hb; cases b with
      | nil => cases hb
      | cons y b =>
        simp only [List.map_cons, List.cons.injEq, Prod.mk.injEq, Json.str.injEq] at hb
        rw [ih b hb.2, Prod.ext hb.1.1 hb.1.2]
  obtain ⟨a, p⟩ := s
  obtain ⟨b, q⟩ := t
  simp only at h
  rw [hexWrite_inj' h.1, C122_params p q (this _ _ h.2)]

/-- **C122** A transaction is sent just if there is one, and what is sent determines both it and the parameters, in each of the two
forms.
Missing: that booleans are sent as booleans (`C122_false_flags`). -/
theorem C122_submit_partial (s t : Submission) (json : Bool) : ((submitRequest s json).isSome = true ↔ s.tx ≠ []) ∧
    ((submitRequest s json).isSome = true → submitRequest s json = submitRequest t json → s = t) := by
  have h1 : ∀ s : Submission, (submitRequest s json).isSome = true ↔ s.tx ≠ [] := by
    intro s
    unfold submitRequest
    rw [← List.length_pos_iff]
    split
    · simp_all
    · simp_all
  refine ⟨h1 s, fun hs he => ?_⟩
  have ht := hs
  rw [he] at ht
  rw [h1, ← List.length_pos_iff] at hs ht
  unfold submitRequest at he
  rw [if_pos hs, if_pos ht, Option.some.injEq] at he
  cases json with
  | true =>
    simp only [if_true, Request.mk.injEq, Sum.inl.injEq, true_and] at he
    exact submission_inj s t he
  | false =>
    simp only [Bool.false_eq_true, if_false, Request.mk.injEq, Sum.inr.injEq] at he
    obtain ⟨a, p⟩ := s
    obtain ⟨b, q⟩ := t
    simp only at he
    rw [he.2, C122_params p q he.1]

/-- **C122** Transactions are sent together just if there are any and none of them is empty, and what is sent determines each of them,
their order, and the parameters, for each and for all. -/
theorem C122_submit_many (l m : List Submission) (p q : Params) :
    ((submitManyRequest l p).isSome = true ↔ l ≠ [] ∧ ∀ s ∈ l, s.tx ≠ []) ∧
    ((submitManyRequest l p).isSome = true → submitManyRequest l p = submitManyRequest m q → l = m ∧ p = q) := by
  have h1 : ∀ l p, (submitManyRequest l p).isSome = true ↔ (decide (l.length > 0) && l.all fun s => decide (s.tx.length > 0)) = true := by
    intro l p
    unfold submitManyRequest
    split <;> simp_all
  refine ⟨?_, fun hs he => ?_⟩
  · rw [h1]
    simp [List.length_pos_iff]
  · have ht := hs
    rw [he] at ht
    rw [h1] at hs ht
    unfold submitManyRequest at he
    rw [if_pos hs, if_pos ht] at he
    simp only [Option.some.injEq, Request.mk.injEq, Sum.inl.injEq, Json.arr.injEq] at he
    refine ⟨?_, C122_params p q he.1⟩
    have hm := he.2
    clear he h1 hs ht
    induction l generalizing m with
    | nil => cases m with
      | nil => rfl
      | cons => cases hm
    | cons x l ih => cases m with
      | nil => cases hm
      | cons y m =>
        simp only [List.map_cons, List.cons.injEq] at hm
        rw [submission_inj x y hm.1, ih m hm.2]

/-- **C122** is false: what the merchant API has as a boolean in JSON, if a proof of inclusion is asked for, is sent as the text of a
number, whenever it is sent. -/
theorem C122_false_flags (s : Submission) (b : Bool) (h : s.params.merkleProof = some b) :
    s.toJson.get "merkleProof".toList = some (.str (if b then "1".toList else "0".toList)) := by
  obtain ⟨tx, ⟨p1, p2, p3, p4, p5, p6⟩⟩ := s
  simp only at h
  subst h
  cases p1 <;> cases p2 <;> rfl

/-- **C122** What is sent for a transaction has it in hexadecimal under `rawtx`, and each option, if it is set, under its
name. -/
theorem C122_body (s : Submission) : s.toJson.get "rawtx".toList = some (.str (hexWrite s.tx)) ∧
    s.toJson.get "callbackUrl".toList = s.params.callbackUrl.map .str ∧
    s.toJson.get "callbackToken".toList = s.params.callbackToken.map .str ∧
    s.toJson.get "merkleFormat".toList = s.params.merkleFormat.map .str ∧
    s.toJson.get "callbackEncryption".toList = s.params.callbackEncryption.map .str := by
  obtain ⟨tx, ⟨p1, p2, p3, p4, p5, p6⟩⟩ := s
  refine ⟨rfl, ?_, ?_, ?_, ?_⟩ <;> cases p1 <;> cases p2 <;> cases p3 <;> cases p4 <;> cases p5 <;> cases p6 <;> rfl

/-- **C120**: what is written of a status: the id, the result, the description, and the conflicts exactly if there are any. -/
theorem C120_status_written (s : Status) : text? s.toJson "txid".toList = some (writeId s.txid) ∧
    text? s.toJson "returnResult".toList = some (if s.success then "success".toList else "failure".toList) ∧
    text? s.toJson "resultDescription".toList = some s.description ∧
    s.toJson.get "conflictedWith".toList = if s.conflicts = [] then none else some (.arr (s.conflicts.map Conflict.toJson)) := by
  unfold Status.toJson Status.entries
  cases h : s.conflicts with
  | nil => exact ⟨rfl, rfl, rfl, rfl⟩
  | cons c l => exact ⟨rfl, rfl, rfl, rfl⟩

/-- **C120**: the status is a part of what is written of an answer exactly if it has an id. -/
theorem C120_query_status (t : TxStatus) (h : t.toJson ≠ .null) :
    t.toJson.get "txid".toList = if t.status.txid = 0 then none else some (.str (writeId t.status.txid)) := by
  unfold TxStatus.toJson at h ⊢
  by_cases hv : t.valid = true
  · rw [if_pos hv]
    by_cases hs : t.status.txid = 0
    · rw [if_pos hs, if_neg (by simp [Status.valid, hs])]
      cases t.confirmations <;> rfl
    · rw [if_neg hs, if_pos (by simpa [Status.valid] using hs)]
      rfl
  · rw [if_neg hv] at h
    exact absurd rfl h

/-- **C120** The answer to a query is written exactly if it has a version, a time and a miner; and then it says these. -/
theorem C120_query_written (t : TxStatus) : (t.toJson ≠ .null ↔ t.apiVersion ≠ [] ∧ t.timestamp ≠ [] ∧ t.miner ≠ []) ∧
    (t.toJson ≠ .null → text? t.toJson "apiVersion".toList = some t.apiVersion ∧ text? t.toJson "timestamp".toList = some t.timestamp ∧
      text? t.toJson "minerId".toList = some (hexWrite t.miner) ∧ nat? t.toJson "txSecondMempoolExpiry".toList = some t.expiry.toNat) := by
  have hv : t.valid = true ↔ t.apiVersion ≠ [] ∧ t.timestamp ≠ [] ∧ t.miner ≠ [] := by simp [TxStatus.valid, and_assoc]
  by_cases h : t.valid = true
  · unfold TxStatus.toJson
    rw [if_pos h]
    refine ⟨⟨fun _ => hv.mp h, fun _ => by simp⟩, fun _ => ?_⟩
    unfold Status.entries
    split <;> split <;> (refine ⟨text_iff.2 ?_, text_iff.2 ?_, text_iff.2 ?_, nat_iff.2 ?_⟩ <;> rfl)
  · unfold TxStatus.toJson
    rw [if_neg h]
    exact ⟨⟨fun e => absurd rfl e, fun e => absurd (hv.mpr e) h⟩, fun e => absurd rfl e⟩

/-- **C120** The answer to many transactions is written exactly if nothing of it is missing: the time, a miner with a key, the block, the expiry, and the ids of all
transactions; and then it says these. -/
theorem C120_many_written (V : Curve) (t : SubmittedMany) :
    (t.toJson V ≠ .null ↔ t.timestamp ≠ [] ∧ V.pubValid t.miner = true ∧ t.hash ≠ 0 ∧ t.height ≠ 0 ∧ t.expiry ≠ 0 ∧ ∀ s ∈ t.txs, s.txid ≠ 0) ∧
    (t.toJson V ≠ .null → text? (t.toJson V) "timestamp".toList = some t.timestamp ∧ text? (t.toJson V) "minerId".toList = some (hexWrite t.miner) ∧
      text? (t.toJson V) "currentHighestBlockHash".toList = some (writeId t.hash) ∧ nat? (t.toJson V) "currentHighestBlockHeight".toList = some t.height.toNat ∧
      nat? (t.toJson V) "failureCount".toList = some t.failures.toNat ∧
      (t.toJson V).get "txs".toList = some (.arr (t.txs.map fun s => .obj s.entries))) := by
  have hv : t.valid V = true ↔ t.timestamp ≠ [] ∧ V.pubValid t.miner = true ∧ t.hash ≠ 0 ∧ t.height ≠ 0 ∧ t.expiry ≠ 0 ∧ ∀ s ∈ t.txs, s.txid ≠ 0 := by
    simp [SubmittedMany.valid, Status.valid, and_assoc]
  by_cases h : t.valid V = true
  · unfold SubmittedMany.toJson
    rw [if_pos h]
    exact ⟨⟨fun _ => hv.mp h, fun _ => by simp⟩, fun _ => ⟨text_iff.2 rfl, text_iff.2 rfl, text_iff.2 rfl, nat_iff.2 rfl, nat_iff.2 rfl, rfl⟩⟩
  · unfold SubmittedMany.toJson
    rw [if_neg h]
    exact ⟨⟨fun e => absurd rfl e, fun e => absurd (hv.mpr e) h⟩, fun e => absurd rfl e⟩

/-- The hypotheses hold of a submission. -/
example : (submitRequest ⟨[1, 0, 0, 0], { callbackUrl := some "http".toList, merkleProof := some true }⟩ true).isSome = true := rfl

/-- An answer to a query, as the reader wants it. -/
def answered : Json :=
  .obj [("apiVersion".toList, .str "1.5.0".toList), ("timestamp".toList, .str "now".toList), ("minerId".toList, .str (hexWrite [2, 3])),
    ("txSecondMempoolExpiry".toList, .int 5), ("blockHash".toList, .str (writeId 9)), ("blockHeight".toList, .int 70),
    ("currentHighestBlockHash".toList, .str (writeId 8)), ("currentHighestBlockHeight".toList, .int 71),
    ("txid".toList, .str (writeId 7)), ("returnResult".toList, .str "success".toList), ("returnDescription".toList, .str []),
    ("resultDescription".toList, .str []), ("txs".toList, .arr []), ("failureCount".toList, .int 3)]

/-- The right sides of `C120_query_partial`, `C120_submitted_partial` and `C120_many_partial` hold of an answer. -/
example : SaysQuery answered ⟨{}, "1.5.0".toList, "now".toList, [2, 3], 5, some 9, some 70, none⟩ ∧
    SaysSubmitted answered ⟨{}, "1.5.0".toList, "now".toList, [2, 3], 5, 8, 71⟩ ∧
    SaysMany answered ⟨"1.5.0".toList, "now".toList, [2, 3], 9, 71, 5, [], 3⟩ := by
  have hs : ∃ s, SaysStatus answered s := ⟨⟨7, true, [], []⟩, ⟨_, rfl, readReverse_write _⟩, by decide, rfl, ⟨[], rfl⟩, rfl, .inl ⟨rfl, rfl⟩, by simp⟩
  refine ⟨⟨hs, rfl, rfl, rfl, ⟨_, rfl, hexRead_write _⟩, ⟨5, rfl, rfl⟩, ⟨_, rfl, ?_, ?_⟩, ⟨70, rfl, rfl⟩, .inl ⟨rfl, rfl⟩⟩,
    ⟨hs, rfl, rfl, rfl, ⟨_, rfl, hexRead_write _⟩, ⟨5, rfl, rfl⟩, ⟨_, rfl, readReverse_write _⟩, by decide, ⟨71, rfl, rfl⟩⟩,
    ⟨rfl, rfl, ⟨_, rfl, hexRead_write _⟩, ⟨_, rfl⟩, ⟨_, rfl, readReverse_write _⟩, by decide, ⟨71, rfl, rfl⟩, ⟨5, rfl, rfl⟩,
      ⟨[], rfl, .nil, by simp⟩, ⟨3, rfl, rfl⟩⟩⟩
  · rw [readReverse_write]; decide
  · rw [readReverse_write]

end Verif.Pay.Mapi
