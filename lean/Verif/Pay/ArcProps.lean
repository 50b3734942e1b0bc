import Verif.Pay.Arc
import Verif.Pay.FeeForProps
import Verif.Pay.ExtendedProps
import Verif.Pay.MapiProps
import Verif.Pay.BumpJsonProps
import Verif.Text.Bip276Props

/-
C123: which responses of ARC are valid and what can be had of them.  C124: transactions that satisfy a policy.  C125: what is sent.
-/

namespace Verif.Pay.Arc

open Verif Verif.Net Verif.Text Verif.Pay Verif.SPV
open Verif.Pay.Mapi (Http entry)

/-! ### Specification -/

namespace Spec

/-- What ARC.hpp 60-61 says of a response that is valid. -/
def Documented (L : Lib) (r : Http) : Prop :=
  (r.status = 401 ∧ r.body = []) ∨ (r.contentType = some "application/json".toList ∧ ∃ j, L.parse r.body = some j)

/-- An object says how the server is. -/
def SaysHealth (j : Json) (healthy : Bool) (version reason : List Char) : Prop :=
  j.get "healthy".toList = some (.bool healthy) ∧ j.get "version".toList = some (.str version) ∧
    (j.get "reason".toList = some (.str reason) ∨ (j.get "reason".toList = some .null ∧ reason = []))

/-- An object says what the status of a transaction is. -/
def SaysStatus (j : Json) : Prop :=
  (∃ v, j.get "timestamp".toList = some v) ∧ (∃ s, j.get "blockHash".toList = some (.str s)) ∧
  (∃ n : Nat, j.get "blockHeight".toList = some (.int n)) ∧ (∃ s, j.get "txid".toList = some (.str s)) ∧
  (∃ s, j.get "merklePath".toList = some (.str s)) ∧ ∃ s, j.get "txStatus".toList = some (.str s)

/-- The limits of a policy. -/
structure Limits where
  script : Nat
  sigops : Nat
  size : Nat
  rate : Rate

/-- An object says what the limits are. -/
def SaysLimits (j : Json) (l : Limits) : Prop :=
  ∃ s b : Nat, ∃ f : Json, l.script < 2 ^ 64 ∧ l.sigops < 2 ^ 64 ∧ l.size < 2 ^ 64 ∧ s < 2 ^ 63 ∧ b < 2 ^ 64 ∧
    j.get "maxscriptsizepolicy".toList = some (.int l.script) ∧ j.get "maxtxsigopscountspolicy".toList = some (.int l.sigops) ∧
    j.get "maxtxsizepolicy".toList = some (.int l.size) ∧ j.get "miningFee".toList = some f ∧ f.get "satoshis".toList = some (.int s) ∧
    f.get "bytes".toList = some (.int b) ∧ l.rate = ⟨BitVec.ofNat 64 s, BitVec.ofNat 64 b⟩

/-- A byte that checks a signature, or several. -/
def checks (op : UInt8) : Nat := if op.toNat = 172 ∨ op.toNat = 173 then 1 else if op.toNat = 174 ∨ op.toNat = 175 then 20 else 0

/-- All that is in scripts. -/
def scripts (t : XTx) : List Bytes := t.inputs.map (·.input.script) ++ t.outputs.map (·.script)

/-- A transaction is within limits but for its fee. -/
structure Within (l : Limits) (t : XTx) : Prop where
  script : ∀ s ∈ scripts t, s.length ≤ l.script
  size : t.plain.write.length ≤ l.size

/-- A transaction meets a policy: it is within the limits, and it pays for each of its bytes. -/
structure Meets (l : Limits) (t : XTx) : Prop extends Within l t where
  sigops : ((scripts t).flatten.map checks).sum ≤ l.sigops
  fee : l.rate.sats.toInt * t.plain.write.length ≤ (spentOf t.inputs - sentOf t.outputs) * l.rate.bytes.toNat

end Spec

open Spec

/-! ### Responses -/

/-- **C123** A response that is as documented is valid; exactly which ones are. -/
theorem C123_valid_iff (L : Lib) (r : Http) : (responseValid L r = true ↔ (r.status = 401 ∧ r.body = []) ∨
    r.contentType = some "application/json".toList ∨ ∃ j, L.parse r.body = some j) ∧ (Documented L r → responseValid L r = true) := by
  have h : responseValid L r = true ↔ (r.status = 401 ∧ r.body = []) ∨
      r.contentType = some "application/json".toList ∨ ∃ j, L.parse r.body = some j := by
    unfold responseValid bodyOf
    rw [← Option.isSome_iff_exists]
    split
    · rename_i h
      exact ⟨fun _ => .inl h, fun _ => rfl⟩
    · rename_i h
      rw [Bool.or_eq_true, decide_eq_true_eq]
      exact ⟨.inr, fun h' => h'.resolve_left h⟩
  refine ⟨h, fun hd => h.2 ?_⟩
  rcases hd with hd | ⟨hd, -⟩
  · exact .inl hd
  · exact .inr (.inl hd)

/-- **C123** is false: what is said to be JSON and is not is valid, and so is what is not said to be JSON and is. -/
theorem C123_false_content (L : Lib) (b b' : List Char) (j : Json) (h : L.parse b = none) (h' : L.parse b' = some j) :
    (∃ r, responseValid L r = true ∧ r.body = b ∧ ¬ Documented L r) ∧ ∃ r, responseValid L r = true ∧ r.body = b' ∧ ¬ Documented L r := by
  constructor
  · refine ⟨⟨200, some "application/json".toList, b⟩, (C123_valid_iff L _).1.2 (.inr (.inl rfl)), rfl, ?_⟩
    rintro (⟨h1, -⟩ | ⟨-, k, hk⟩)
    · cases h1
    · rw [h] at hk; cases hk
  · refine ⟨⟨200, none, b'⟩, (C123_valid_iff L _).1.2 (.inr (.inr ⟨j, h'⟩)), rfl, ?_⟩
    rintro (⟨h1, -⟩ | ⟨hk, -⟩)
    · cases h1
    · cases hk

theorem entryAt_get {j v : Json} {key : List Char} (h : j.get key = some v) : entryAt j key = .ok v := by
  cases j <;> try cases h
  rename_i l
  have h' : (l.find? fun e => e.1 = key).map (·.2) = some v := h
  unfold entryAt
  simp only [h']

theorem has_iff {j : Json} {key : List Char} {p : Json → Bool} : has j key p = true ↔ ∃ v, j.get key = some v ∧ p v = true := by
  unfold has
  cases j.get key <;> simp

theorem has_obj {j v : Json} {key : List Char} (h : j.get key = some v) : j.isObj = true := by
  cases j <;> first | rfl | cases h

/-- **C123** What is valid as the health of the server is an object that says it; and where it is no error, that is what is read. -/
theorem C123_health (L : Lib) (r : Http) (j : Json) (hb : L.parse r.body = some j) : (healthResponseValid L r = true ↔
      ∃ h v s, SaysHealth j h v s) ∧ ∀ h v s, SaysHealth j h v s → r.status = 200 →
        healthOf L r = .ok j ∧ healthy j = .ok h ∧ version j = .ok v ∧ reason j = .ok s := by
  have hv : responseValid L r = true := (C123_valid_iff L r).1.2 (.inr (.inr ⟨j, hb⟩))
  constructor
  · unfold healthResponseValid healthValid bodyOf
    rw [hv, hb]
    simp only [Bool.true_and, Bool.and_eq_true]
    constructor
    · rintro ⟨⟨⟨-, h1⟩, h2⟩, h3⟩
      rw [has_iff] at h1 h2 h3
      obtain ⟨v1, h1, h1'⟩ := h1
      obtain ⟨v2, h2, h2'⟩ := h2
      obtain ⟨v3, h3, h3'⟩ := h3
      cases v1 <;> cases h1'
      cases v2 <;> cases h2'
      cases v3 <;> cases h3'
      · exact ⟨_, _, [], h1, h2, .inr ⟨h3, rfl⟩⟩
      · exact ⟨_, _, _, h1, h2, .inl h3⟩
    · rintro ⟨h, v, s, h1, h2, h3⟩
      refine ⟨⟨⟨has_obj h1, has_iff.2 ⟨_, h1, rfl⟩⟩, has_iff.2 ⟨_, h2, rfl⟩⟩, ?_⟩
      rcases h3 with h3 | ⟨h3, -⟩
      · exact has_iff.2 ⟨_, h3, rfl⟩
      · exact has_iff.2 ⟨_, h3, rfl⟩
  · rintro h v s ⟨h1, h2, h3⟩ hs
    refine ⟨?_, ?_, ?_, ?_⟩
    · unfold healthOf isError bodyGet bodyOf
      simp [hs, hb]
    · unfold healthy
      rw [entryAt_get h1]
      rfl
    · unfold version
      rw [entryAt_get h2]
      rfl
    · unfold reason
      rcases h3 with h3 | ⟨h3, rfl⟩ <;> rw [entryAt_get h3]

/-- **C123** What is valid as the status of a transaction, where it is no error, is an object that says it, both for one that is asked
for and for one that is sent; and for many that are sent, where it is no error, it is a list of such objects, but for the time. -/
theorem C123_status_partial (L : Lib) (r : Http) (j : Json) (hb : L.parse r.body = some j) (hs : r.status = 200) :
    (statusResponseValid L r = true ↔ SaysStatus j) ∧ (submitResponseValid L r = true ↔ SaysStatus j) ∧
    (submitTxsResponseValid L r = true ↔ ∃ l, j = .arr l ∧ ∀ k ∈ l, statusValid k = true) ∧
    ∀ k, (statusValid k = true ∧ ∃ v, k.get "timestamp".toList = some v) ↔ SaysStatus k := by
  have hv : responseValid L r = true := (C123_valid_iff L r).1.2 (.inr (.inr ⟨j, hb⟩))
  have he : isError r = false := by simp [isError, hs]
  have hk : ∀ k, (statusValid k = true ∧ ∃ v, k.get "timestamp".toList = some v) ↔ SaysStatus k := by
    intro k
    unfold statusValid SaysStatus
    simp only [Bool.and_eq_true, has_iff]
    constructor
    · rintro ⟨⟨⟨⟨⟨⟨v1, h1, h1'⟩, v2, h2, h2'⟩, v3, h3, h3'⟩, v4, h4, h4'⟩, v5, h5, h5'⟩, ht⟩
      cases v1 <;> cases h1'
      cases v2 <;> try cases h2'
      cases v3 <;> cases h3'
      cases v4 <;> cases h4'
      cases v5 <;> cases h5'
      rename_i n _ _ _
      refine ⟨ht, ⟨_, h1⟩, ⟨n.toNat, ?_⟩, ⟨_, h3⟩, ⟨_, h4⟩, ⟨_, h5⟩⟩
      simp only [isUnsigned, decide_eq_true_eq] at h2'
      rw [Int.toNat_of_nonneg h2']
      exact h2
    · rintro ⟨ht, ⟨s1, h1⟩, ⟨n, h2⟩, ⟨s3, h3⟩, ⟨s4, h4⟩, ⟨s5, h5⟩⟩
      refine ⟨⟨⟨⟨⟨⟨_, h1, rfl⟩, _, h2, ?_⟩, _, h3, rfl⟩, _, h4, rfl⟩, _, h5, rfl⟩, ht⟩
      simp [isUnsigned]
  have hss : (successValid j && statusValid j) = true ↔ SaysStatus j := by
    rw [← hk j, Bool.and_eq_true]
    unfold successValid
    rw [Bool.and_eq_true, Option.isSome_iff_exists]
    constructor
    · rintro ⟨⟨-, h1⟩, h2⟩
      exact ⟨h2, h1⟩
    · rintro ⟨h2, v, h1⟩
      exact ⟨⟨has_obj h1, v, h1⟩, h2⟩
  refine ⟨?_, ?_, ?_, hk⟩
  · unfold statusResponseValid bodyOf
    rw [hv, hb]
    simp only [he]
    exact hss
  · unfold submitResponseValid bodyOf
    rw [hv, hb]
    simp only [he]
    exact hss
  · unfold submitTxsResponseValid bodyOf
    rw [hv, hb]
    simp only [he, Bool.true_and, Bool.false_eq_true, if_false]
    unfold manyValid
    split
    · rename_i l
      rw [List.all_eq_true]
      constructor
      · intro h; exact ⟨l, rfl, h⟩
      · rintro ⟨_, ⟨⟩, h⟩; exact h
    · rename_i hn
      simp only [Bool.false_eq_true, false_iff]
      rintro ⟨l, rfl, -⟩
      exact hn l rfl

/-- **C123**, for the fees: what is valid as a policy is an object with numbers for the limits, and that is what is read. -/
theorem C123_policy_partial (L : Lib) (r : Http) (j : Json) (hb : L.parse r.body = some j) (hv : policyResponseValid L r = true) :
    ∃ p, policyOf L r = .ok p ∧ j.get "policy".toList = some p ∧ (∃ t, j.get "timestamp".toList = some t ∧ timestampOf L r = asText t) ∧
      (∃ v, p.get "maxscriptsizepolicy".toList = some v ∧ isNumber v = true ∧ maxScript p = as64 v) ∧
      (∃ v, p.get "maxtxsigopscountspolicy".toList = some v ∧ isNumber v = true ∧ maxSigops p = as64 v) ∧
      (∃ v, p.get "maxtxsizepolicy".toList = some v ∧ isNumber v = true ∧ maxSize p = as64 v) ∧
      ∃ f, p.get "miningFee".toList = some f ∧ f.isObj = true := by
  unfold policyResponseValid bodyOf at hv
  rw [hb] at hv
  simp only [Bool.and_eq_true, has_iff, successValid, Option.isSome_iff_exists] at hv
  obtain ⟨-, ⟨-, t, ht⟩, p, hp, hpv⟩ := hv
  unfold policyValid at hpv
  simp only [Bool.and_eq_true, has_iff] at hpv
  obtain ⟨⟨⟨⟨-, v1, h1, h1'⟩, v2, h2, h2'⟩, v3, h3, h3'⟩, f, hf, hf'⟩ := hpv
  refine ⟨p, ?_, hp, ⟨t, ht, ?_⟩, ⟨v1, h1, h1', ?_⟩, ⟨v2, h2, h2', ?_⟩, ⟨v3, h3, h3', ?_⟩, f, hf, hf'⟩
  · unfold policyOf bodyGet bodyOf
    rw [hb]
    exact entryAt_get hp
  · unfold timestampOf bodyGet bodyOf
    rw [hb]
    change (entryAt j "timestamp".toList >>= asText) = _
    rw [entryAt_get ht]; rfl
  · unfold maxScript; rw [entryAt_get h1]; rfl
  · unfold maxSigops; rw [entryAt_get h2]; rfl
  · unfold maxSize; rw [entryAt_get h3]; rfl

/-- A policy that says nothing of fees. -/
def feeless : Json :=
  .obj [("maxscriptsizepolicy".toList, .int 100), ("maxtxsigopscountspolicy".toList, .int 100), ("maxtxsizepolicy".toList, .int 100),
    ("miningFee".toList, .obj [])]

/-- **C123** is false: there is a policy that is valid, and to ask for the fee, or if a transaction satisfies it, is undefined, for
every transaction. -/
theorem C123_false_fee : policyValid feeless = true ∧ miningFee feeless = .error .ub ∧ ∀ t, satisfies feeless t = .error .ub :=
  ⟨rfl, rfl, fun _ => rfl⟩

/-- **C123** is false: a response that is said to be JSON, and is not, is valid as any of those, and is no error; and to ask for what it
says is undefined. -/
theorem C123_false_undefined (L : Lib) (r : Http) (hs : r.status = 200) (hc : r.contentType = some "application/json".toList)
    (hb : L.parse r.body = none) : (healthResponseValid L r = true ∧ policyResponseValid L r = true ∧ statusResponseValid L r = true ∧
      submitResponseValid L r = true ∧ submitTxsResponseValid L r = true ∧ isError r = false) ∧
    healthOf L r = .error .ub ∧ policyOf L r = .error .ub ∧ timestampOf L r = .error .ub ∧ bodyGet L r = .error .ub := by
  have hv : responseValid L r = true := (C123_valid_iff L r).1.2 (.inr (.inl hc))
  have he : isError r = false := by simp [isError, hs]
  have hg : bodyGet L r = .error .ub := by unfold bodyGet bodyOf; rw [hb]
  refine ⟨⟨?_, ?_, ?_, ?_, ?_, he⟩, ?_, ?_, ?_, hg⟩
  · unfold healthResponseValid bodyOf; rw [hv, hb]; rfl
  · unfold policyResponseValid bodyOf; rw [hv, hb]; rfl
  · unfold statusResponseValid bodyOf; rw [hv, hb]; rfl
  · unfold submitResponseValid bodyOf; rw [hv, hb]; rfl
  · unfold submitTxsResponseValid bodyOf; rw [hv, hb]; rfl
  · unfold healthOf; rw [he]; exact hg
  · unfold policyOf; rw [hg]; rfl
  · unfold timestampOf; rw [hg]; rfl

/-- **C123** Where a transaction is not found, or is malformed, the response is valid just if its body is an error. -/
theorem C123_error (L : Lib) (r : Http) (j : Json) (hb : L.parse r.body = some j) :
    (r.status = 404 → (statusResponseValid L r = true ↔ L.errorValid j = true)) ∧
    (r.status = 400 → (submitResponseValid L r = true ↔ L.errorValid j = true) ∧
      (submitTxsResponseValid L r = true ↔ L.errorValid j = true)) := by
  have hv : responseValid L r = true := (C123_valid_iff L r).1.2 (.inr (.inr ⟨j, hb⟩))
  constructor
  · intro hs
    unfold statusResponseValid bodyOf
    rw [hv, hb]
    simp [isError, hs]
  · intro hs
    constructor
    · unfold submitResponseValid bodyOf
      rw [hv, hb]
      simp [isError, hs]
    · unfold submitTxsResponseValid bodyOf
      rw [hv, hb]
      simp [isError, hs]

/-- **C123** Just when a response that is an error and whose body is JSON is valid: for one that is asked for where it is not found, for
those that are sent where they are malformed, with an error; and with the codes of what is wrong with a transaction, whatever the body. -/
theorem C123_error_iff (L : Lib) (r : Http) (j : Json) (hb : L.parse r.body = some j) (hs : r.status ≠ 200) :
    (statusResponseValid L r = true ↔ (r.status = 404 ∧ L.errorValid j = true) ∨ r.status = 409) ∧
    (submitResponseValid L r = true ↔ (r.status = 400 ∧ L.errorValid j = true) ∨ r.status = 409 ∨ r.status = 422 ∨
      (460 ≤ r.status ∧ r.status ≤ 469) ∨ r.status = 473) ∧
    (submitTxsResponseValid L r = true ↔ (r.status = 400 ∧ L.errorValid j = true) ∨ r.status = 409 ∨
      (460 ≤ r.status ∧ r.status ≤ 469) ∨ r.status = 473) ∧
    healthOf L r = .ok .null := by
  have hv : responseValid L r = true := (C123_valid_iff L r).1.2 (.inr (.inr ⟨j, hb⟩))
  have he : isError r = true := by simpa [isError] using hs
  refine ⟨?_, ?_, ?_, ?_⟩
  · unfold statusResponseValid bodyOf
    rw [hv, hb]
    simp only [he, Bool.true_and, if_true, Bool.or_eq_true, Bool.and_eq_true, decide_eq_true_eq]
    tauto
  · unfold submitResponseValid bodyOf
    rw [hv, hb]
    simp only [he, Bool.true_and, if_true, Bool.or_eq_true, Bool.and_eq_true, decide_eq_true_eq]
    tauto
  · unfold submitTxsResponseValid bodyOf
    rw [hv, hb]
    simp only [he, Bool.true_and, if_true, Bool.or_eq_true, Bool.and_eq_true, decide_eq_true_eq]
    tauto
  · unfold healthOf
    rw [he]
    rfl

/-- **C123** is false: with a conflict, and with most of the codes for what is wrong with a transaction, the response is valid whatever
JSON its body is. -/
theorem C123_false_conflict (L : Lib) (r : Http) (j : Json) (hb : L.parse r.body = some j) :
    (r.status = 409 → statusResponseValid L r = true) ∧
    (r.status = 409 ∨ (460 ≤ r.status ∧ r.status ≤ 469) ∨ r.status = 473 →
      submitResponseValid L r = true ∧ submitTxsResponseValid L r = true) := by
  have hv : responseValid L r = true := (C123_valid_iff L r).1.2 (.inr (.inr ⟨j, hb⟩))
  constructor
  · intro hs
    unfold statusResponseValid bodyOf
    rw [hv, hb]
    simp [isError, hs]
  · intro hs
    have he : isError r = true := by
      simp only [isError, decide_eq_true_eq]
      omega
    constructor
    · unfold submitResponseValid bodyOf
      rw [hv, hb]
      simp only [he, Bool.true_and, if_true, Bool.or_eq_true, Bool.and_eq_true, decide_eq_true_eq]
      omega
    · unfold submitTxsResponseValid bodyOf
      rw [hv, hb]
      simp only [he, Bool.true_and, if_true, Bool.or_eq_true, Bool.and_eq_true, decide_eq_true_eq]
      omega

/-- **C123** is false: to ask what the error is never comes to an end, for any response. -/
theorem C123_false_error (L : Lib) (r : Http) : ∀ depth, errorOf L depth r = none
  | 0 => rfl
  | d + 1 => by rw [errorOf, C123_false_error L r d]

/-- The hypotheses hold of a response. -/
example : ∃ (L : Lib) (r : Http) (j : Json), L.parse r.body = some j ∧ r.status = 200 ∧ SaysStatus j ∧ L.parse [] = none := by
  refine ⟨⟨fun s => if s = ['x'] then some (.obj [("timestamp".toList, .null), ("blockHash".toList, .str []),
    ("blockHeight".toList, .int 7), ("txid".toList, .str []), ("merklePath".toList, .str []), ("txStatus".toList, .str [])]) else none,
    fun _ => false⟩, ⟨200, none, ['x']⟩, _, rfl, rfl, ⟨⟨_, rfl⟩, ⟨_, rfl⟩, ⟨7, rfl⟩, ⟨_, rfl⟩, ⟨_, rfl⟩, ⟨_, rfl⟩⟩, rfl⟩

/-! ### Policies -/

theorem as64_nat {n : Nat} (h : n < 2 ^ 64) : ∃ v, as64 (.int n) = .ok v ∧ v.toNat = n := by
  refine ⟨BitVec.ofNat 64 n, ?_, by rw [BitVec.toNat_ofNat, Nat.mod_eq_of_lt h]⟩
  rw [as64, BitVec.ofInt_natCast]

theorem limits_read {j : Json} {l : Limits} (h : SaysLimits j l) : (∃ v, maxScript j = .ok v ∧ v.toNat = l.script) ∧
    (∃ v, maxSigops j = .ok v ∧ v.toNat = l.sigops) ∧ (∃ v, maxSize j = .ok v ∧ v.toNat = l.size) ∧ miningFee j = .ok l.rate ∧
    0 ≤ l.rate.sats.toInt := by
  obtain ⟨s, b, f, b1, b2, b3, b4, b5, h1, h2, h3, h4, h5, h6, h7⟩ := h
  refine ⟨?_, ?_, ?_, ?_, ?_⟩
  · unfold maxScript; rw [entryAt_get h1]; exact as64_nat b1
  · unfold maxSigops; rw [entryAt_get h2]; exact as64_nat b2
  · unfold maxSize; rw [entryAt_get h3]; exact as64_nat b3
  · unfold miningFee
    rw [entryAt_get h4]
    show (entryAt f "satoshis".toList >>= as64 >>= fun s => entryAt f "bytes".toList >>= as64 >>= fun b => Except.ok (⟨s, b⟩ : Rate)) = _
    rw [entryAt_get h5, entryAt_get h6]
    show (as64 (.int s) >>= fun s => as64 (.int b) >>= fun b => Except.ok (⟨s, b⟩ : Rate)) = _
    rw [as64, as64, BitVec.ofInt_natCast, BitVec.ofInt_natCast, h7]
    rfl
  · rw [h7]
    simp only
    rw [BitVec.toInt_eq_toNat_cond, BitVec.toNat_ofNat]
    split <;> omega

theorem within_iff (l : Limits) (t : XTx) : Within l t ↔ t.plain.serializedSize ≤ l.size ∧
    (∀ i ∈ t.inputs, i.input.script.length ≤ l.script) ∧ ∀ o ∈ t.outputs, o.script.length ≤ l.script := by
  rw [← Tx.write_length]
  constructor
  · rintro ⟨h1, h2⟩
    refine ⟨h2, fun i hi => h1 _ ?_, fun o ho => h1 _ ?_⟩
    · exact List.mem_append_left _ (List.mem_map_of_mem (f := fun i : XInput => i.input.script) hi)
    · exact List.mem_append_right _ (List.mem_map_of_mem (f := fun o : Output => o.script) ho)
  · rintro ⟨h1, h2, h3⟩
    refine ⟨fun s hs => ?_, h1⟩
    rcases List.mem_append.1 hs with hs | hs
    · obtain ⟨i, hi, rfl⟩ := List.mem_map.1 hs
      exact h2 i hi
    · obtain ⟨o, ho, rfl⟩ := List.mem_map.1 hs
      exact h3 o ho

/-- Exactly which transactions satisfy a policy, with the comparison as it is made. -/
theorem satisfies_iff (j : Json) (l : Limits) (h : SaysLimits j l) (t : XTx) (f : Int) (hf : t.fee = some f) :
    satisfies j t = .ok true ↔ Within l t ∧ l.rate.bytes ≠ 0 ∧
      Double.rnd (Double.rnd l.rate.sats.toInt / Double.rnd l.rate.bytes.toNat) ≤
        Double.rnd ((spentOf t.inputs - sentOf t.outputs : Int) : ℚ) := by
  obtain ⟨⟨v1, e1, e1'⟩, ⟨v2, e2, -⟩, ⟨v3, e3, e3'⟩, e4, -⟩ := limits_read h
  have hfee : f = spentOf t.inputs - sentOf t.outputs := (C52_fee_partial t f hf).2.2
  rw [within_iff, ← hfee]
  unfold satisfies
  rw [e1, e2, e3, e4]
  simp only [Except.bind, bind]
  rw [e1', e3', hf]
  unfold feeBelow
  rw [if_neg (by simp [sigops])]
  by_cases c1 : t.plain.serializedSize > l.size
  · rw [if_pos c1]
    simp only [Except.ok.injEq, Bool.false_eq_true, false_iff]
    omega
  · rw [if_neg c1]
    simp only
    by_cases c2 : l.rate.bytes = 0
    · rw [if_pos c2]
      simp only [reduceCtorEq, false_iff]
      exact fun hh => hh.2.1 c2
    · rw [if_neg c2]
      by_cases c3 : Double.rnd f < Double.rnd (Double.rnd l.rate.sats.toInt / Double.rnd l.rate.bytes.toNat)
      · simp only [c3, decide_true, Except.ok.injEq, Bool.false_eq_true, false_iff]
        exact fun hh => absurd hh.2.2 (not_le_of_gt c3)
      · simp only [c3, decide_false]
        split
        · rename_i c4
          simp only [Except.ok.injEq, Bool.false_eq_true, false_iff]
          rw [List.any_eq_true] at c4
          obtain ⟨i, hi, c4⟩ := c4
          rw [decide_eq_true_eq] at c4
          intro hh
          have := hh.1.2.1 i hi
          omega
        · rename_i c4
          split
          · rename_i c5
            simp only [Except.ok.injEq, Bool.false_eq_true, false_iff]
            rw [List.any_eq_true] at c5
            obtain ⟨o, ho, c5⟩ := c5
            rw [decide_eq_true_eq] at c5
            intro hh
            have := hh.1.2.2 o ho
            omega
          · rename_i c5
            simp only [true_iff]
            refine ⟨⟨by omega, fun i hi => ?_, fun o ho => ?_⟩, c2, le_of_not_gt c3⟩
            · refine Nat.le_of_not_lt fun hlt => c4 (List.any_eq_true.2 ⟨i, hi, ?_⟩)
              rw [decide_eq_true_eq]
              exact hlt
            · refine Nat.le_of_not_lt fun hlt => c5 (List.any_eq_true.2 ⟨o, ho, ?_⟩)
              rw [decide_eq_true_eq]
              exact hlt

/-- **C124**, for what is compared: exactly which transactions satisfy a policy.  The fee for all of a transaction is compared with
that for one byte, and how many signatures are checked does not count.  Amounts of more than `2 ^ 53` satoshis are rounded before. -/
theorem C124_satisfies_partial (j : Json) (l : Limits) (h : SaysLimits j l) (hl : l.rate.sats.toInt ≤ 2 ^ 53) (t : XTx) (f : Int)
    (hf : t.fee = some f) :
    satisfies j t = .ok true ↔ Within l t ∧ l.rate.bytes ≠ 0 ∧
      l.rate.sats.toInt ≤ (spentOf t.inputs - sentOf t.outputs) * l.rate.bytes.toNat := by
  rw [satisfies_iff j l h t f hf]
  refine and_congr_right fun _ => and_congr_right fun hb => ?_
  obtain ⟨s, hs⟩ := Int.eq_ofNat_of_zero_le (limits_read h).2.2.2.2
  rw [hs] at hl
  rw [hs, show ((s : ℤ) : ℚ) = (s : ℚ) by push_cast; rfl]
  exact rnd_div_le_iff s l.rate.bytes.toNat _ (by exact_mod_cast hl) (bytes_pos hb)

/-- **C124** A transaction that meets a policy satisfies it. -/
theorem C124_meets (j : Json) (l : Limits) (h : SaysLimits j l) (hb : l.rate.bytes ≠ 0) (t : XTx) (f : Int) (hf : t.fee = some f)
    (hm : Meets l t) : satisfies j t = .ok true := by
  refine (satisfies_iff j l h t f hf).2 ⟨hm.toWithin, hb, Double.rnd_mono ?_⟩
  have h0 := (limits_read h).2.2.2.2
  have hl : (8 : Int) ≤ t.plain.write.length := by
    rw [Tx.write_length]
    unfold Tx.serializedSize
    omega
  have := hm.fee
  have h1 : l.rate.sats.toInt * 8 ≤ l.rate.sats.toInt * t.plain.write.length := Int.mul_le_mul_of_nonneg_left hl h0
  have h2 : l.rate.sats.toInt * 8 ≤ (spentOf t.inputs - sentOf t.outputs) * l.rate.bytes.toNat := by omega
  have hbq : (0 : ℚ) < l.rate.bytes.toNat := by exact_mod_cast bytes_pos hb
  have hsq : (0 : ℚ) ≤ l.rate.sats.toInt := by exact_mod_cast h0
  have h3 : (l.rate.sats.toInt : ℚ) * 8 ≤ ((spentOf t.inputs - sentOf t.outputs : Int) : ℚ) * l.rate.bytes.toNat := by exact_mod_cast h2
  have b1 := (Double.rnd_between hbq.le).1
  have s1 := (Double.rnd_between hsq).2
  rw [div_le_iff₀ (Double.rnd_pos hbq)]
  generalize ((spentOf t.inputs - sentOf t.outputs : Int) : ℚ) = F at *
  have hF : 0 ≤ F := by
    by_contra hc
    push Not at hc
    have := mul_neg_of_neg_of_pos hc hbq
    linarith
  have h4 := mul_le_mul_of_nonneg_left b1 hF
  norm_num at s1 h4 ⊢
  linarith

/-- A transaction that pays one satoshi and has an output that checks many signatures. -/
def cheap : XTx := ⟨1, [⟨⟨⟨0, 0⟩, [], 0⟩, ⟨2, []⟩⟩], [⟨1, [0xac, 0xae, 0xae]⟩], 0⟩

/-- A policy with a fee of one satoshi for each byte, and no signatures. -/
def dear : Json :=
  .obj [("maxscriptsizepolicy".toList, .int 100), ("maxtxsigopscountspolicy".toList, .int 0), ("maxtxsizepolicy".toList, .int 1000),
    ("miningFee".toList, .obj [("satoshis".toList, .int 1), ("bytes".toList, .int 1)])]

def dearLimits : Limits := ⟨100, 0, 1000, ⟨1, 1⟩⟩

theorem dear_says : SaysLimits dear dearLimits :=
  ⟨1, 1, .obj [("satoshis".toList, .int 1), ("bytes".toList, .int 1)], by decide, by decide, by decide, by decide, by decide, rfl, rfl,
    rfl, rfl, rfl, rfl, rfl⟩

/-- **C124** is false: there are a policy and a transaction that satisfies it, although it pays less than a fiftieth of the fee, and
checks more signatures than it may. -/
theorem C124_false_satisfied : SaysLimits dear dearLimits ∧ satisfies dear cheap = .ok true ∧
    (spentOf cheap.inputs - sentOf cheap.outputs) * dearLimits.rate.bytes.toNat * 50 <
      dearLimits.rate.sats.toInt * cheap.plain.write.length ∧
    dearLimits.sigops < ((scripts cheap).flatten.map checks).sum := by
  refine ⟨dear_says, ?_, by decide, by decide⟩
  refine (C124_satisfies_partial dear dearLimits dear_says (by decide) cheap 1 (by decide)).2 ⟨⟨by decide, by decide⟩, by decide, by decide⟩

/-- **C124** is false: how many signatures may be checked makes no difference to any transaction. -/
theorem C124_false_sigops (j j' : Json) (l l' : Limits) (h : SaysLimits j l) (h' : SaysLimits j' l')
    (he : l' = { l with sigops := l'.sigops }) (t : XTx) (f : Int) (hf : t.fee = some f) :
    satisfies j t = .ok true ↔ satisfies j' t = .ok true := by
  rw [satisfies_iff j l h t f hf, satisfies_iff j' l' h' t f hf, within_iff, within_iff, he]

theorem sum_flatten (l : List Bytes) (f : UInt8 → Nat) : (l.flatten.map f).sum = (l.map fun s => (s.map f).sum).sum := by
  induction l with
  | nil => rfl
  | cons a l ih => rw [List.flatten_cons, List.map_append, List.sum_append, ih, List.map_cons, List.sum_cons]

/-- What the code counts, and then does not return, is how many signatures are checked. -/
theorem C124_counted (t : XTx) : sigopsCounted t.plain = ((scripts t).flatten.map checks).sum ∧ sigops t.plain = 0 := by
  have h : sigopsOf = checks := by
    funext op
    revert op
    unfold sigopsOf checks
    intro op
    have e : ∀ n : UInt8, op = n ↔ op.toNat = n.toNat := fun n => UInt8.toNat_inj.symm
    simp only [e]
    rfl
  refine ⟨?_, rfl⟩
  rw [sum_flatten]
  unfold sigopsCounted scripts XTx.plain
  rw [List.map_append, List.sum_append, h]
  simp only [List.map_map]
  rfl

/-- The hypotheses of `C124_meets` hold of a transaction that pays enough. -/
example : let l : Limits := ⟨100, 100, 1000, ⟨1, 1⟩⟩; let t : XTx := ⟨1, [⟨⟨⟨0, 0⟩, [], 0⟩, ⟨2000, []⟩⟩], [⟨1, [0xac]⟩], 0⟩
    Meets l t ∧ t.fee = some 1999 ∧ l.rate.bytes ≠ 0 :=
  ⟨⟨⟨by decide, by decide⟩, by decide, by decide⟩, by decide, by decide⟩

/-! ### What is sent -/

/-- The entries for a list of keys, each with a value or not. -/
def entries : List (List Char) → List (Option (List Char)) → List (List Char × List Char)
  | k :: ks, v :: vs => entry k v ++ entries ks vs
  | _, _ => []

theorem entries_keys : ∀ (ks : List (List Char)) (vs : List (Option (List Char))), ∀ e ∈ entries ks vs, e.1 ∈ ks
  | [], _, e, h => by simp [entries] at h
  | _ :: _, [], e, h => by simp [entries] at h
  | k :: ks, v :: vs, e, h => by
    rw [entries] at h
    rcases List.mem_append.1 h with h | h
    · cases v with
      | none => cases h
      | some s =>
        simp only [entry, List.mem_singleton] at h
        rw [h]
        exact List.mem_cons_self
    · exact List.mem_cons_of_mem _ (entries_keys ks vs e h)

theorem entries_inj : ∀ (ks : List (List Char)) (vs ws : List (Option (List Char))), ks.Nodup → vs.length = ks.length →
    ws.length = ks.length → entries ks vs = entries ks ws → vs = ws
  | [], vs, ws, _, hv, hw, _ => by
    rw [List.length_eq_zero_iff.1 hv, List.length_eq_zero_iff.1 hw]
  | k :: ks, [], _, _, hv, _, _ => by simp at hv
  | k :: ks, _ :: _, [], _, _, hw, _ => by simp at hw
  | k :: ks, v :: vs, w :: ws, hn, hv, hw, h => by
    rw [List.nodup_cons] at hn
    rw [entries, entries] at h
    have hnot : ∀ vs e, e ∈ entries ks vs → e.1 ≠ k := fun vs e he hk => hn.1 (hk ▸ entries_keys ks vs e he)
    simp only [List.length_cons, Nat.add_right_cancel_iff] at hv hw
    have ih := fun h => entries_inj ks vs ws hn.2 hv hw h
    cases v with
    | none =>
      cases w with
      | none => rw [ih h]
      | some s =>
        exfalso
        simp only [entry, List.nil_append, List.cons_append] at h
        exact hnot vs (k, s) (by rw [h]; exact List.mem_cons_self) rfl
    | some s =>
      cases w with
      | none =>
        exfalso
        simp only [entry, List.nil_append, List.cons_append] at h
        exact hnot ws (k, s) (by rw [← h]; exact List.mem_cons_self) rfl
      | some s' =>
        simp only [entry, List.cons_append, List.nil_append, List.cons.injEq, Prod.mk.injEq, true_and] at h
        rw [ih h.2, h.1]

/-- What the digits of a number stand for. -/
def digitsValue (s : List Char) : Nat := ofDigitsBE 10 (s.map fun c => c.toNat - 48)

theorem digit_char : ∀ d : Nat, d < 10 → (Char.ofNat (48 + d)).toNat = 48 + d := by
  intro d h
  have : ∀ d : Fin 10, (Char.ofNat (48 + d.1)).toNat = 48 + d.1 := by decide
  exact this ⟨d, h⟩

theorem natText_value (n : Nat) : digitsValue (natText n) = n := by
  unfold natText digitsValue
  split
  · rename_i h
    rw [h]
    decide
  · rw [List.map_map]
    have : (toDigitsBE 10 n).map ((fun c : Char => c.toNat - 48) ∘ fun d => Char.ofNat (48 + d)) = toDigitsBE 10 n := by
      conv_rhs => rw [← List.map_id (toDigitsBE 10 n)]
      apply List.map_congr_left
      intro d hd
      have := toDigitsBE_lt (by omega) hd
      simp only [Function.comp, id, digit_char d this]
      omega
    rw [this, ofDigitsBE_toDigitsBE]

theorem natText_head (n : Nat) (s : List Char) : natText n ≠ '-' :: s := by
  unfold natText
  split
  · intro h; cases h
  · intro h
    have hm : '-' ∈ (toDigitsBE 10 n).map fun d => Char.ofNat (48 + d) := by rw [h]; exact List.mem_cons_self
    obtain ⟨d, hd, he⟩ := List.mem_map.1 hm
    have h1 := digit_char d (toDigitsBE_lt (by omega) hd)
    rw [he] at h1
    have : ('-' : Char).toNat = 45 := rfl
    omega

theorem writeInt_inj {a b : BitVec 32} (h : writeInt a = writeInt b) : a = b := by
  apply BitVec.eq_of_toInt_eq
  unfold writeInt at h
  split at h <;> split at h
  · have := congrArg digitsValue h
    rw [natText_value, natText_value] at this
    omega
  · exact absurd h (natText_head _ _)
  · exact absurd h.symm (natText_head _ _)
  · rw [List.cons.injEq] at h
    have := congrArg digitsValue h.2
    rw [natText_value, natText_value] at this
    omega

theorem map_some_inj {α β : Type} {f : α → β} (hf : ∀ a b, f a = f b → a = b) {x y : Option α} (h : x.map f = y.map f) : x = y := by
  cases x <;> cases y
  · rfl
  · cases h
  · cases h
  · rw [hf _ _ (Option.some.inj h)]

theorem writeBool_inj : ∀ a b : Bool, writeBool a = writeBool b → a = b := by decide
theorem seen_inj (a b : Seen) (h : a.write = b.write) : a = b := by
  cases a <;> cases b <;> first | rfl | exact absurd h (by decide)
theorem content_inj (a b : Content) (h : a.write = b.write) : a = b := by
  cases a <;> cases b <;> first | rfl | exact absurd h (by decide)

/-- **C125** The headers of a request determine every option. -/
theorem C125_headers (s u : Submit) (h : s.headers = u.headers) : s = u := by
  let ks : List (List Char) := ["X-CallbackURL".toList, "X-FullStatusUpdates".toList, "X-MaxTimeout".toList, "X-SkipFeeValidation".toList,
    "X-SkipScriptValidation".toList, "X-SkipTxValidation".toList, "X-CumulativeFeeValidation".toList, "X-CallbackToken".toList,
    "X-WaitFor".toList]
  let vs : Submit → List (Option (List Char)) := fun s => [s.callbackUrl, s.fullStatusUpdates.map writeBool, s.maxTimeout.map writeInt,
    s.skipFee.map writeBool, s.skipScript.map writeBool, s.skipTx.map writeBool, s.cumulativeFee.map writeBool, s.callbackToken,
    s.waitFor.map Seen.write]
  have e : ∀ s : Submit, s.headers = ("Content-Type".toList, s.content.write) :: entries ks (vs s) := by
    intro s
    unfold Submit.headers
    simp only [ks, vs, entries, List.append_assoc, List.append_nil]
  rw [e, e, List.cons.injEq, Prod.mk.injEq] at h
  have hc := content_inj _ _ h.1.2
  have hv := entries_inj ks (vs s) (vs u) (by decide) rfl rfl h.2
  simp only [vs, List.cons.injEq, and_true] at hv
  obtain ⟨h1, h2, h3, h4, h5, h6, h7, h8, h9⟩ := hv
  obtain ⟨a0, a1, a2, a3, a4, a5, a6, a7, a8, a9⟩ := s
  obtain ⟨b0, b1, b2, b3, b4, b5, b6, b7, b8, b9⟩ := u
  simp only at hc h1 h2 h3 h4 h5 h6 h7 h8 h9
  rw [hc, h1, map_some_inj writeBool_inj h2, map_some_inj (fun _ _ => writeInt_inj) h3, map_some_inj writeBool_inj h4,
    map_some_inj writeBool_inj h5, map_some_inj writeBool_inj h6, map_some_inj writeBool_inj h7, h8, map_some_inj seen_inj h9]

/-- **C125** A request to send a transaction determines the transaction and the options. -/
theorem C125_submit (base : List Char) (t t' : XTx) (s s' : Submit) (ht : t.Fits) (ht' : t'.Fits)
    (h : submitRequest base t s = submitRequest base t' s') : t = t' ∧ s = s' := by
  unfold submitRequest at h
  rw [Posted.mk.injEq] at h
  have hs := C125_headers s s' h.2.1
  subst hs
  refine ⟨?_, rfl⟩
  have hb := h.2.2
  cases hc : s.content <;> rw [hc] at hb
  · exact C09_injective t t' ht ht' (hexWrite_inj (Body.text.inj hb))
  · have := Body.json.inj hb
    simp only [txJson, Json.obj.injEq, List.cons.injEq, Prod.mk.injEq, Json.str.injEq, and_true, true_and] at this
    exact C09_injective t t' ht ht' (hexWrite_inj this)
  · exact C09_injective t t' ht ht' (Body.bytes.inj hb)

theorem write_ne_nil (t : XTx) : t.write ≠ [] := by
  intro h
  have := t.write_length
  rw [h] at this
  unfold XTx.serializedSize at this
  simp only [List.length_nil] at this
  omega

theorem flatten_inj : ∀ l m : List XTx, (∀ t ∈ l, t.Fits) → (∀ t ∈ m, t.Fits) → (l.map XTx.write).flatten = (m.map XTx.write).flatten → l = m
  | [], [], _, _, _ => rfl
  | [], t :: m, _, _, h => by
    simp only [List.map_nil, List.flatten_nil, List.map_cons, List.flatten_cons] at h
    exact absurd (List.append_eq_nil_iff.1 h.symm).1 (write_ne_nil t)
  | t :: l, [], _, _, h => by
    simp only [List.map_nil, List.flatten_nil, List.map_cons, List.flatten_cons] at h
    exact absurd (List.append_eq_nil_iff.1 h).1 (write_ne_nil t)
  | t :: l, u :: m, hl, hm, h => by
    simp only [List.map_cons, List.flatten_cons] at h
    have h1 := (C09_roundtrip_partial t (hl t (by simp)) (l.map XTx.write).flatten).1
    have h2 := (C09_roundtrip_partial u (hm u (by simp)) (m.map XTx.write).flatten).1
    rw [h, h2, Except.ok.injEq, Prod.mk.injEq] at h1
    rw [← h1.1, flatten_inj l m (fun x hx => hl x (by simp [hx])) (fun x hx => hm x (by simp [hx])) h1.2.symm]

theorem joined_cons (c : Char) (x : List Char) (l : List (List Char)) :
    ∃ r, joined [c] (x :: l) = x ++ r ∧ ((l = [] ∧ r = []) ∨ (l ≠ [] ∧ r = c :: joined [c] l)) := by
  cases l with
  | nil => exact ⟨[], by simp [joined], .inl ⟨rfl, rfl⟩⟩
  | cons y l => exact ⟨c :: joined [c] (y :: l), by simp [joined], .inr ⟨by simp, rfl⟩⟩

theorem line_split (c : Char) : ∀ (x y r r' : List Char), c ∉ x → c ∉ y → (r = [] ∨ ∃ s, r = c :: s) → (r' = [] ∨ ∃ s, r' = c :: s) →
    x ++ r = y ++ r' → x = y ∧ r = r'
  | [], [], _, _, _, _, _, _, h => ⟨rfl, h⟩
  | [], b :: y, r, r', _, hy, hr, _, h => by
    exfalso
    rcases hr with rfl | ⟨s, rfl⟩
    · cases h
    · simp only [List.nil_append, List.cons_append, List.cons.injEq] at h
      exact hy (h.1 ▸ List.mem_cons_self)
  | a :: x, [], r, r', hx, _, _, hr', h => by
    exfalso
    rcases hr' with rfl | ⟨s, rfl⟩
    · cases h
    · simp only [List.nil_append, List.cons_append, List.cons.injEq] at h
      exact hx (h.1 ▸ List.mem_cons_self)
  | a :: x, b :: y, r, r', hx, hy, hr, hr', h => by
    simp only [List.cons_append, List.cons.injEq] at h
    obtain ⟨h1, h2⟩ := line_split c x y r r' (fun hc => hx (List.mem_cons_of_mem _ hc)) (fun hc => hy (List.mem_cons_of_mem _ hc)) hr hr' h.2
    rw [h.1, h1]
    exact ⟨rfl, h2⟩

theorem joined_inj (c : Char) : ∀ l m : List (List Char), (∀ x ∈ l, x ≠ [] ∧ c ∉ x) → (∀ x ∈ m, x ≠ [] ∧ c ∉ x) →
    joined [c] l = joined [c] m → l = m
  | [], [], _, _, _ => rfl
  | [], y :: m, _, hm, h => by
    obtain ⟨r, hr, -⟩ := joined_cons c y m
    rw [hr] at h
    exact absurd (List.append_eq_nil_iff.1 h.symm).1 (hm y (by simp)).1
  | x :: l, [], hl, _, h => by
    obtain ⟨r, hr, -⟩ := joined_cons c x l
    rw [hr] at h
    exact absurd (List.append_eq_nil_iff.1 h).1 (hl x (by simp)).1
  | x :: l, y :: m, hl, hm, h => by
    obtain ⟨r, hr, hr'⟩ := joined_cons c x l
    obtain ⟨r2, hr2, hr2'⟩ := joined_cons c y m
    rw [hr, hr2] at h
    have a1 : r = [] ∨ ∃ s, r = c :: s := by
      rcases hr' with ⟨-, e⟩ | ⟨-, e⟩
      · exact .inl e
      · exact .inr ⟨_, e⟩
    have a2 : r2 = [] ∨ ∃ s, r2 = c :: s := by
      rcases hr2' with ⟨-, e⟩ | ⟨-, e⟩
      · exact .inl e
      · exact .inr ⟨_, e⟩
    obtain ⟨h1, h2⟩ := line_split c x y r r2 (hl x (by simp)).2 (hm y (by simp)).2 a1 a2 h
    rw [h1]
    congr 1
    rcases hr' with ⟨e, e'⟩ | ⟨e, e'⟩ <;> rcases hr2' with ⟨e2, e2'⟩ | ⟨e2, e2'⟩
    · rw [e, e2]
    · rw [h2, e2'] at e'; cases e'
    · rw [h2, e2'] at e'; cases e'
    · rw [e', e2', List.cons.injEq] at h2
      exact joined_inj c l m (fun z hz => hl z (by simp [hz])) (fun z hz => hm z (by simp [hz])) h2.2

theorem hex_line (t : XTx) : hexWrite t.write ≠ [] ∧ '\n' ∉ hexWrite t.write := by
  constructor
  · intro h
    have := hexWrite_length t.write
    rw [h] at this
    have := List.length_pos_iff.2 (write_ne_nil t)
    simp only [List.length_nil] at *
    omega
  · intro h
    have := List.all_eq_true.1 (hexWrite_lower t.write) _ h
    exact absurd this (by decide)

/-- **C125** A request to send many transactions determines each of them, their order and the options. -/
theorem C125_submit_txs (base : List Char) (l l' : List XTx) (s s' : Submit) (hl : ∀ t ∈ l, t.Fits) (hl' : ∀ t ∈ l', t.Fits)
    (h : submitTxsRequest base l s = submitTxsRequest base l' s') : l = l' ∧ s = s' := by
  unfold submitTxsRequest at h
  rw [Posted.mk.injEq] at h
  have hs := C125_headers s s' h.2.1
  subst hs
  refine ⟨?_, rfl⟩
  have hb := h.2.2
  have hm : ∀ l l' : List XTx, (∀ t ∈ l, t.Fits) → (∀ t ∈ l', t.Fits) → l.map XTx.write = l'.map XTx.write → l = l' := by
    intro l l' hl hl' he
    exact flatten_inj l l' hl hl' (by rw [he])
  cases hc : s.content <;> rw [hc] at hb
  · have := joined_inj '\n' _ _ (fun x hx => ?_) (fun x hx => ?_) (Body.text.inj hb)
    · refine hm l l' hl hl' ?_
      have e : ∀ l : List XTx, (l.map fun t => hexWrite t.write) = (l.map XTx.write).map hexWrite := fun l => by
        rw [List.map_map]; rfl
      rw [e, e] at this
      exact List.map_injective_iff.2 (fun _ _ => hexWrite_inj) this
    · obtain ⟨t, -, rfl⟩ := List.mem_map.1 hx
      exact hex_line t
    · obtain ⟨t, -, rfl⟩ := List.mem_map.1 hx
      exact hex_line t
  · have := Json.arr.inj (Body.json.inj hb)
    refine hm l l' hl hl' ?_
    have e : ∀ l : List XTx, l.map txJson = (l.map XTx.write).map fun b => Json.obj [("rawTx".toList, .str (hexWrite b))] := fun l => by
      rw [List.map_map]; rfl
    rw [e, e] at this
    refine List.map_injective_iff.2 (fun a b hab => ?_) this
    simp only [Json.obj.injEq, List.cons.injEq, Prod.mk.injEq, Json.str.injEq, and_true, true_and] at hab
    exact hexWrite_inj hab
  · exact flatten_inj l l' hl hl' (Body.bytes.inj hb)

/-- The text of a yes or no. -/
def YesNo (b : Option Bool) (v : List Char) : Prop := (b = some true ∧ v = "true".toList) ∨ (b = some false ∧ v = "false".toList)

/-- The documented texts of what to wait for. -/
def WaitText (w : Option Seen) (v : List Char) : Prop :=
  (w = some .received ∧ v = "RECEIVED".toList) ∨ (w = some .stored ∧ v = "STORED".toList) ∨
  (w = some .announced ∧ v = "ANNOUNCED_TO_NETWORK".toList) ∨ (w = some .requested ∧ v = "REQUESTED_BY_NETWORK".toList) ∨
  (w = some .sent ∧ v = "SENT_TO_NETWORK".toList) ∨ (w = some .accepted ∧ v = "ACCEPTED_BY_NETWORK".toList) ∨
  (w = some .seen ∧ v = "SEEN_ON_NETWORK".toList)

/-- The documented texts of content types. -/
def ContentText (c : Content) (v : List Char) : Prop :=
  (c = .text ∧ v = "text/plain".toList) ∨ (c = .json ∧ v = "application/json".toList) ∨ (c = .octet ∧ v = "application/octet-stream".toList)

theorem yesNo_iff (b : Option Bool) (v : List Char) : b.map writeBool = some v ↔ YesNo b v := by
  unfold YesNo
  rcases b with _ | _ | _
  · simp
  · rw [Option.map_some, Option.some.injEq]
    constructor
    · rintro rfl; exact .inr ⟨rfl, rfl⟩
    · rintro (⟨h, -⟩ | ⟨-, rfl⟩)
      · cases h
      · rfl
  · rw [Option.map_some, Option.some.injEq]
    constructor
    · rintro rfl; exact .inl ⟨rfl, rfl⟩
    · rintro (⟨-, rfl⟩ | ⟨h, -⟩)
      · rfl
      · cases h

theorem waitText_iff (w : Option Seen) (v : List Char) : w.map Seen.write = some v ↔ WaitText w v := by
  constructor
  · intro h
    unfold WaitText
    rcases w with _ | w
    · cases h
    · cases h
      cases w
      · exact .inl ⟨rfl, rfl⟩
      · exact .inr (.inl ⟨rfl, rfl⟩)
      · exact .inr (.inr (.inl ⟨rfl, rfl⟩))
      · exact .inr (.inr (.inr (.inl ⟨rfl, rfl⟩)))
      · exact .inr (.inr (.inr (.inr (.inl ⟨rfl, rfl⟩))))
      · exact .inr (.inr (.inr (.inr (.inr (.inl ⟨rfl, rfl⟩)))))
      · exact .inr (.inr (.inr (.inr (.inr (.inr ⟨rfl, rfl⟩)))))
  · rintro (⟨rfl, rfl⟩ | ⟨rfl, rfl⟩ | ⟨rfl, rfl⟩ | ⟨rfl, rfl⟩ | ⟨rfl, rfl⟩ | ⟨rfl, rfl⟩ | ⟨rfl, rfl⟩) <;> rfl

theorem contentText_iff (c : Content) (v : List Char) : v = c.write ↔ ContentText c v := by
  constructor
  · rintro rfl
    cases c
    · exact .inl ⟨rfl, rfl⟩
    · exact .inr (.inl ⟨rfl, rfl⟩)
    · exact .inr (.inr ⟨rfl, rfl⟩)
  · rintro (⟨rfl, rfl⟩ | ⟨rfl, rfl⟩ | ⟨rfl, rfl⟩) <;> rfl

theorem mem_entry {k v key : List Char} {o : Option (List Char)} : (k, v) ∈ entry key o ↔ k = key ∧ o = some v := by
  unfold entry
  cases o with
  | none => simp
  | some w =>
    simp only [List.mem_singleton, Prod.mk.injEq, Option.some.injEq]
    exact and_congr_right fun _ => eq_comm

/-- **C125** The headers that are sent are just the ones that say what was asked for, under the documented names. -/
theorem C125_header_iff (s : Submit) (k v : List Char) : (k, v) ∈ s.headers ↔
    (k = "Content-Type".toList ∧ ContentText s.content v) ∨ (k = "X-CallbackURL".toList ∧ s.callbackUrl = some v) ∨
    (k = "X-FullStatusUpdates".toList ∧ YesNo s.fullStatusUpdates v) ∨
    (k = "X-MaxTimeout".toList ∧ ∃ n, s.maxTimeout = some n ∧ v = writeInt n) ∨
    (k = "X-SkipFeeValidation".toList ∧ YesNo s.skipFee v) ∨ (k = "X-SkipScriptValidation".toList ∧ YesNo s.skipScript v) ∨
    (k = "X-SkipTxValidation".toList ∧ YesNo s.skipTx v) ∨ (k = "X-CumulativeFeeValidation".toList ∧ YesNo s.cumulativeFee v) ∨
    (k = "X-CallbackToken".toList ∧ s.callbackToken = some v) ∨ (k = "X-WaitFor".toList ∧ WaitText s.waitFor v) := by
  have ht : s.maxTimeout.map writeInt = some v ↔ ∃ n, s.maxTimeout = some n ∧ v = writeInt n := by
    rw [Option.map_eq_some_iff]
    exact exists_congr fun n => and_congr_right fun _ => eq_comm
  unfold Submit.headers
  rw [List.mem_cons, List.mem_append, List.mem_append, List.mem_append, List.mem_append, List.mem_append, List.mem_append,
    List.mem_append, List.mem_append, mem_entry, mem_entry, mem_entry, mem_entry, mem_entry, mem_entry, mem_entry, mem_entry, mem_entry,
    yesNo_iff, yesNo_iff, yesNo_iff, yesNo_iff, yesNo_iff, waitText_iff, ht, Prod.mk.injEq, contentText_iff]
  simp only [or_assoc]

/-- The decimal number of a timeout, with a sign if it is negative. -/
theorem C125_timeout (n : BitVec 32) : (0 ≤ n.toInt → (digitsValue (writeInt n) : Int) = n.toInt) ∧
    (n.toInt < 0 → ∃ t, writeInt n = '-' :: t ∧ (digitsValue t : Int) = -n.toInt) := by
  constructor
  · intro h
    unfold writeInt
    rw [if_pos h, natText_value]
    omega
  · intro h
    unfold writeInt
    rw [if_neg (by omega)]
    refine ⟨_, rfl, ?_⟩
    rw [natText_value]
    omega

/-- What a content type says of a body. -/
def Describes : List Char → Body → Prop
  | t, .bytes _ => t = "application/octet-stream".toList
  | t, .json _ => t = "application/json".toList
  | t, .text _ => t = "text/plain".toList

/-- **C125** The content type that is sent is that of the body. -/
theorem C125_content (base : List Char) (t : XTx) (l : List XTx) (s : Submit) : ∃ v rest,
    (submitRequest base t s).headers = ("Content-Type".toList, v) :: rest ∧ Describes v (submitRequest base t s).body ∧
    (submitTxsRequest base l s).headers = ("Content-Type".toList, v) :: rest ∧ Describes v (submitTxsRequest base l s).body := by
  refine ⟨s.content.write, _, rfl, ?_, rfl, ?_⟩
  · unfold submitRequest
    cases hc : s.content <;> rfl
  · unfold submitTxsRequest
    cases hc : s.content <;> rfl

/-- **C125** A request for the status of a transaction is for that one. -/
theorem C125_status (base : List Char) (a b : Digest) (h : statusPath base a = statusPath base b) : a = b := by
  unfold statusPath at h
  exact writeId_inj (List.append_cancel_left h)

/-- The place under an address that is reached by some names one after the other. -/
def Spec.Under (base : List Char) (names : List (List Char)) : List Char := base ++ names.flatMap ('/' :: ·)

/-- **C125** Where the requests go: one transaction to `v1/tx`, several to `v1/txs`, and a question for the status to `v1/tx` and the id of the
transaction, in 64 hexadecimal digits that are read as the id. -/
theorem C125_paths (base : List Char) (t : XTx) (l : List XTx) (s : Submit) (a : Digest) :
    (submitRequest base t s).path = Spec.Under base ["v1".toList, "tx".toList] ∧
      (submitTxsRequest base l s).path = Spec.Under base ["v1".toList, "txs".toList] ∧
      ∃ x, statusPath base a = Spec.Under base ["v1".toList, "tx".toList, x] ∧ x.length = 64 ∧ readReverseHex x = a := by
  refine ⟨rfl, rfl, writeId a, ?_, ?_, readReverse_write a⟩
  · unfold statusPath
    rw [List.append_assoc]
    refine congrArg (base ++ ·) ?_
    simp [List.flatMap]
  · simp [writeId, hexWrite_length]

example : sampleX.Fits ∧ ∀ t ∈ [sampleX, cheap], t.Fits := by decide

/-- The hypotheses of `C123_error_iff` hold of a response. -/
example : ∃ (L : Lib) (r : Http) (j : Json), L.parse r.body = some j ∧ r.status ≠ 200 :=
  ⟨⟨fun _ => some .null, fun _ => true⟩, { status := 404, contentType := none, body := [] }, .null, rfl, by decide⟩

end Verif.Pay.Arc
