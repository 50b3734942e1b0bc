import Verif.Stratum.Session
import Verif.Stratum.MessageProps

/-
Properties C61, C62 and C63: the version mask in effect, authorisation, and the rules by which a session's values change.
-/

namespace Verif.Stratum

open Verif.Net Verif.Text

namespace Spec

/-- At least `k` bits of the mask are one. -/
def AtLeast (k : Nat) (m : BitVec 32) : Prop := ∃ l : List Nat, l.Nodup ∧ l.length = k ∧ ∀ i ∈ l, m.getLsbD i = true

/-- The bits of one mask are all in another. -/
def Within (a b : BitVec 32) : Prop := ∀ i, a.getLsbD i = true → b.getLsbD i = true

end Spec

theorem one_bit (j : Nat) : (1 : BitVec 32).getLsbD j = decide (j = 0) := by
  have h1 : (1 : BitVec 32) = 1#32 := rfl
  rw [h1, BitVec.getLsbD_one]
  simp

theorem sshiftRight_bit (m : BitVec 32) (i : Nat) (hi : i < 32) : (m.sshiftRight i &&& 1) = 1 ↔ m.getLsbD i = true := by
  have h0 : (m.sshiftRight i).getLsbD 0 = m.getLsbD i := by
    rw [BitVec.getLsbD_sshiftRight]
    simp [hi]
  constructor
  · intro h
    have := congrArg (fun x => x.getLsbD 0) h
    rw [← h0]
    simpa only [BitVec.getLsbD_and, one_bit, decide_true, Bool.and_true] using this
  · intro h
    apply BitVec.eq_of_getLsbD_eq
    intro j hj
    rw [BitVec.getLsbD_and, one_bit]
    by_cases hj0 : j = 0
    · subst hj0
      simp only [h0, h, decide_true, Bool.and_true]
    · simp [hj0]

theorem nodup_length_le {l l' : List Nat} (h : l.Nodup) (hs : ∀ i ∈ l, i ∈ l') : l.length ≤ l'.length := by
  induction l generalizing l' with
  | nil => simp
  | cons a l ih =>
    rw [List.nodup_cons] at h
    have ha := hs a List.mem_cons_self
    have := ih h.2 (l' := l'.erase a) fun i hi =>
      (List.mem_erase_of_ne fun e => h.1 (by rw [← e]; exact hi)).2 (hs i (List.mem_cons_of_mem _ hi))
    rw [List.length_erase_of_mem ha] at this
    have := List.length_pos_of_mem ha
    simp only [List.length_cons]
    omega

theorem bitCount_iff (k : Nat) (m : BitVec 32) : k ≤ bitCount m ↔ Spec.AtLeast k m := by
  have hf : ∀ i, i ∈ (List.range 32).filter (fun i => decide ((m.sshiftRight i &&& 1) = 1)) ↔ m.getLsbD i = true := by
    intro i
    simp only [List.mem_filter, List.mem_range, decide_eq_true_eq]
    constructor
    · rintro ⟨hi, h⟩
      exact (sshiftRight_bit m i hi).1 h
    · intro h
      have hi : i < 32 := BitVec.lt_of_getLsbD h
      exact ⟨hi, (sshiftRight_bit m i hi).2 h⟩
  have hn : ((List.range 32).filter (fun i => decide ((m.sshiftRight i &&& 1) = 1))).Nodup := List.nodup_range.filter _
  unfold bitCount
  constructor
  · intro h
    refine ⟨((List.range 32).filter (fun i => decide ((m.sshiftRight i &&& 1) = 1))).take k, hn.sublist (List.take_sublist _ _), ?_, ?_⟩
    · rw [List.length_take]
      omega
    · intro i hi
      exact (hf i).1 (List.mem_of_mem_take hi)
  · rintro ⟨l, hl, rfl, hb⟩
    exact nodup_length_le hl fun i hi => (hf i).2 (hb i hi)

/-- **C61** The mask that is agreed on is within both parties' masks, has every bit that both have and at least as many as were
asked for. -/
theorem C61_agreed (x : BitVec 32) (r : MaskRequest) (m : BitVec 32) (h : makeMask x r = some m) :
    Spec.Within m x ∧ Spec.Within m r.mask ∧ (∀ a, Spec.Within a x → Spec.Within a r.mask → Spec.Within a m) ∧
      Spec.AtLeast r.minBitCount.toNat m := by
  unfold makeMask at h
  split at h
  · simp at h
  · next hc =>
    simp only [Option.some.injEq] at h
    subst h
    refine ⟨fun i hi => ?_, fun i hi => ?_, fun a h1 h2 i hi => ?_, (bitCount_iff _ _).1 (by omega)⟩
    · simp only [BitVec.getLsbD_and, Bool.and_eq_true] at hi
      exact hi.1
    · simp only [BitVec.getLsbD_and, Bool.and_eq_true] at hi
      exact hi.2
    · simp [h1 i hi, h2 i hi]

/-- **C61** There is no mask in effect exactly if no mask within both has as many bits as were asked for. -/
theorem C61_none (x : BitVec 32) (r : MaskRequest) :
    makeMask x r = none ↔ ¬ ∃ a, Spec.Within a x ∧ Spec.Within a r.mask ∧ Spec.AtLeast r.minBitCount.toNat a := by
  unfold makeMask
  split
  · next hc =>
    simp only [true_iff]
    rintro ⟨a, h1, h2, l, hl, hk, hb⟩
    have : r.minBitCount.toNat ≤ bitCount (x &&& r.mask) :=
      (bitCount_iff _ _).2 ⟨l, hl, hk, fun i hi => by simp [h1 i (hb i hi), h2 i (hb i hi)]⟩
    omega
  · next hc =>
    simp only [reduceCtorEq, false_iff, Classical.not_not]
    refine ⟨x &&& r.mask, fun i hi => ?_, fun i hi => ?_, (bitCount_iff _ _).1 (by omega)⟩
    · simp only [BitVec.getLsbD_and, Bool.and_eq_true] at hi
      exact hi.1
    · simp only [BitVec.getLsbD_and, Bool.and_eq_true] at hi
      exact hi.2

example : makeMask 0x1fffe000 { mask := 0x00ffff00, minBitCount := 8 } = some 0x00ffe000 := by decide +kernel

example : makeMask 0x1fffe000 { mask := 0x000000ff, minBitCount := 1 } = none := by decide +kernel

namespace Spec

/-- What can happen to the masks of a session: the server sets its own, or the client asks for one. -/
inductive MaskEvent
  | set (m : BitVec 32)
  | configure (r : MaskRequest)

/-- The mask the server set last. -/
def lastSet : List MaskEvent → BitVec 32
  | [] => 0
  | .set m :: _ => m
  | .configure _ :: l => lastSet l

/-- What the client asked for last. -/
def lastAsked : List MaskEvent → MaskRequest
  | [] => {}
  | .configure r :: _ => r
  | .set _ :: l => lastAsked l

end Spec

/-- The masks after a history, which is given latest first. -/
def maskAfter : List Spec.MaskEvent → MaskParams
  | [] => {}
  | .set m :: l => (maskAfter l).set m
  | .configure r :: l => (maskAfter l).configure r

/-- **C61** After every history of setting and asking, the mask in effect is within the mask that the server set last and the one
that the client asked for last, and has at least as many bits as the client asked for last.  Missing: a well-formed text of a mask
is not accepted (`C61_false_text`). -/
theorem C61_history_partial (l : List Spec.MaskEvent) (m : BitVec 32) (h : (maskAfter l).get = some m) :
    Spec.Within m (Spec.lastSet l) ∧ Spec.Within m (Spec.lastAsked l).mask ∧
      Spec.AtLeast (Spec.lastAsked l).minBitCount.toNat m := by
  have h1 : ∀ l, (maskAfter l).localMask = Spec.lastSet l ∧ (maskAfter l).requested = Spec.lastAsked l := by
    intro l
    induction l with
    | nil => exact ⟨rfl, rfl⟩
    | cons e l ih =>
      cases e with
      | set m => exact ⟨rfl, ih.2⟩
      | configure r => exact ⟨ih.1, rfl⟩
  unfold MaskParams.get at h
  rw [(h1 l).1, (h1 l).2] at h
  have := C61_agreed _ _ _ h
  exact ⟨this.1, this.2.1, this.2.2.2⟩

example : (maskAfter [.configure { mask := 0xff, minBitCount := 4 }, .set 0x0f]).get = some 0x0f := by decide +kernel

/-- **C61, false as stated** No text of a mask is accepted: not that of any mask, nor any other. -/
theorem C61_false_text (s : List Char) (m : BitVec 32) :
    readVersionMask s ≠ .ok m ∧ readVersionMask (writeVersionMask m) = .refused := by
  constructor
  · unfold readVersionMask
    split
    · simp
    · split <;> simp
  · unfold readVersionMask writeVersionMask
    simp [hexWrite_length, hexRead_write]

/-- **C61, false as stated** A mask is written with its least byte first, while the reader means the most significant one to be first: what it would have read, if it did not
give up, are the bytes the other way round. -/
theorem C61_false_order (m : BitVec 32) : ∃ b, hexRead (writeVersionMask m) = some b ∧ b.length = 4 ∧ leNat b = m.toNat ∧
    (big 32 b = m ↔ b.reverse = b) := by
  refine ⟨wfix 4 m, hexRead_write _, by simp, leNat_leBytes 4 _ (by simpa using m.isLt), ?_, ?_⟩
  · intro h
    have h1 : leNat (wfix 4 m).reverse = leNat (wfix 4 m) := by
      rw [show leNat (wfix 4 m) = m.toNat from leNat_leBytes 4 _ (by simpa using m.isLt)]
      have := congrArg BitVec.toNat h
      simp only [big, little, BitVec.toNat_ofNat] at this
      rw [Nat.mod_eq_of_lt] at this
      · exact this
      · have := leNat_lt (wfix 4 m).reverse
        simpa using this
    rw [← leBytes_leNat (wfix 4 m).reverse, h1]
    simpa using leBytes_leNat (wfix 4 m)
  · intro h
    unfold big little
    rw [h, show leNat (wfix 4 m) = m.toNat from leNat_leBytes 4 _ (by simpa using m.isLt), BitVec.ofNat_toNat, BitVec.setWidth_eq]

example : writeVersionMask 0x1fffe000 = "00e0ff1f".toList := by decide +kernel

/-- **C61, false as stated** Eight characters that are not digits are undefined behaviour. -/
theorem C61_false_undefined (s : List Char) : readVersionMask s = .ub ↔ s.length = 8 ∧ hexRead s = none := by
  unfold readVersionMask
  split
  · next h => simp [h]
  · next h =>
    have h8 : s.length = 8 := by omega
    cases hexRead s <;> simp [h8]

/-! Authorisation. -/

namespace Spec

/-- A request with a name and perhaps a password, as it should be for authorisation. -/
def Asks (r : Json) (l : Login) : Prop :=
  (paramsOf r = [.str l.username] ∧ l.password = none) ∨ ∃ p, paramsOf r = [.str l.username, .str p] ∧ l.password = some p

/-- An answer with the number of the request and an error of the given code, by its members as they are sent. -/
def Refused (r : Json) (code : Nat) (j : Json) : Prop :=
  j.get "id".toList = some (idOf r) ∧ ∃ m, j.get "error".toList = some (.arr [.int code, .str m])

end Spec

theorem authorizeValid_iff (r : Json) : authorizeValid r = true ↔ ∃ l, Spec.Asks r l := by
  unfold authorizeValid Spec.Asks
  split
  · next u h => simp only [true_iff]; exact ⟨⟨u, none⟩, .inl ⟨h, rfl⟩⟩
  · next u p h => simp only [true_iff]; exact ⟨⟨u, some p⟩, .inr ⟨p, h, rfl⟩⟩
  · next h1 h2 =>
    simp only [Bool.false_eq_true, false_iff]
    rintro ⟨l, ⟨h, -⟩ | ⟨p, h, -⟩⟩
    · exact h1 _ h
    · exact h2 _ _ h

theorem deserialize_asks {r : Json} {l : Login} (h : Spec.Asks r l) : Login.deserialize (paramsOf r) = some l := by
  obtain ⟨u, pw⟩ := l
  rcases h with ⟨h, hp⟩ | ⟨p, h, hp⟩
  · simp only at hp h
    rw [h, hp]
    rfl
  · simp only at hp h
    rw [h, hp]
    rfl

/-- **C62** A request that is not one for authorisation is refused, whatever the state, and changes nothing.  The answer has the
number of the request, and the number of an error that is not the one for a second authorisation. -/
theorem C62_malformed (login : Login → Option Err) (s : State D) (r : Json) (h : ¬ ∃ l, Spec.Asks r l) :
    ∃ j, s.authorize login r = .done s j ∧ boolResult j = false ∧ Spec.Refused r 27 j := by
  refine ⟨_, by unfold State.authorize; rw [if_pos (by
    rw [Bool.not_eq_true', ← Bool.not_eq_true, authorizeValid_iff]
    exact h)], ?_, rfl, _, rfl⟩
  unfold boolResult
  have h3 : resultOf (makeRefusal (idOf r) illegalParams) = .bool false := rfl
  rw [h3]
  simp

/-- **C62** A second authorisation is refused, and changes nothing.  Missing: that the first is accepted exactly if the callback
accepts it (`C62_false_rejected`, `C62_false_accepted`). -/
theorem C62_second_partial (login : Login → Option Err) (s : State D) (r : Json) (h : s.authorized = true) :
    ∃ j, s.authorize login r = .done s j ∧ boolResult j = false ∧
      ((∃ l, Spec.Asks r l) → Spec.Refused r 26 j) ∧ ((¬ ∃ l, Spec.Asks r l) → Spec.Refused r 27 j) := by
  by_cases hv : ∃ l, Spec.Asks r l
  · refine ⟨makeRefusal (idOf r) illegalMethod, ?_, ?_, fun _ => ⟨rfl, _, rfl⟩, fun h => absurd hv h⟩
    · unfold State.authorize
      rw [if_neg (by simpa [authorizeValid_iff] using hv), if_pos h]
    · unfold boolResult
      have h3 : resultOf (makeRefusal (idOf r) illegalMethod) = .bool false := rfl
      rw [h3]
      simp
  · obtain ⟨j, h1, h2, h3⟩ := C62_malformed login s r hv
    exact ⟨j, h1, h2, fun h => absurd h hv, fun _ => h3⟩

/-- **C62, false as stated** A login that the callback rejects is authorised, under the name that was given, and answered with
true. -/
theorem C62_false_rejected (login : Login → Option Err) (s : State D) (r : Json) (l : Login) (e : Err)
    (hr : Spec.Asks r l) (hs : s.authorized = false) (hl : login l = some e) :
    s.authorize login r = .done { s with name := some l.username } (makeBool (idOf r) true) := by
  unfold State.authorize
  rw [if_neg (by simpa [authorizeValid_iff] using ⟨l, hr⟩), if_neg (by simp [hs]), deserialize_asks hr]
  simp only [hl]

/-- **C62, false as stated** A login that the callback accepts is undefined behaviour: an error is taken out of nothing. -/
theorem C62_false_accepted (login : Login → Option Err) (s : State D) (r : Json) (l : Login)
    (hr : Spec.Asks r l) (hs : s.authorized = false) (hl : login l = none) : s.authorize login r = .ub := by
  unfold State.authorize
  rw [if_neg (by simpa [authorizeValid_iff] using ⟨l, hr⟩), if_neg (by simp [hs]), deserialize_asks hr]
  simp only [hl]

example : Spec.Asks (makeRequest (.number 1) .authorize (Login.serialize ⟨"dk".toList, some "meep".toList⟩)) ⟨"dk".toList, some "meep".toList⟩ :=
  .inr ⟨_, rfl, rfl⟩

/-- A session after requests, each with what the callback does at the time; none after undefined behaviour.  Nothing is thrown. -/
def sessionAfter (s : State D) : List (Json × (Login → Option Err)) → Option (State D)
  | [] => some s
  | (r, login) :: l =>
    match s.authorize login r with
    | .done s' _ => sessionAfter s' l
    | .threw s' => sessionAfter s' l
    | .ub => none

/-- **C62** Over every history of requests: a session that was not authorised is so afterwards exactly if one of the requests was
one for authorisation whose login the callback rejected, and it goes under the name of the first of those. -/
theorem C62_history_partial (l : List (Json × (Login → Option Err))) (s s' : State D) (hs : s.authorized = false)
    (h : sessionAfter s l = some s') :
    s'.name = (l.findSome? fun e =>
      if authorizeValid e.1 then (Login.deserialize (paramsOf e.1)).map (·.username) else none) ∧
      (s'.authorized = true ↔ ∃ e ∈ l, ∃ a err, Spec.Asks e.1 a ∧ e.2 a = some err) := by
  induction l generalizing s with
  | nil =>
    simp only [sessionAfter, Option.some.injEq] at h
    subst h
    unfold State.authorized at hs
    refine ⟨by simpa using hs, ?_⟩
    simp [State.authorized, hs]
  | cons e l ih =>
    obtain ⟨r, login⟩ := e
    by_cases hv : ∃ a, Spec.Asks r a
    · obtain ⟨a, ha⟩ := hv
      cases hl : login a with
      | none =>
        unfold sessionAfter at h
        rw [C62_false_accepted login s r a ha hs hl] at h
        simp at h
      | some err =>
        unfold sessionAfter at h
        rw [C62_false_rejected login s r a err ha hs hl] at h
        simp only at h
        have keep : ∀ (l : List (Json × (Login → Option Err))) (s s' : State D), s.authorized = true →
            sessionAfter s l = some s' → s' = s := by
          intro l
          induction l with
          | nil =>
            intro s s' _ h
            simp only [sessionAfter, Option.some.injEq] at h
            exact h.symm
          | cons e l ih =>
            intro s s' hs h
            obtain ⟨j, hj, -⟩ := C62_second_partial e.2 s e.1 hs
            unfold sessionAfter at h
            rw [hj] at h
            exact ih s s' hs h
        have hk := keep l _ s' rfl h
        subst hk
        have hav : authorizeValid r = true := (authorizeValid_iff r).2 ⟨a, ha⟩
        refine ⟨?_, ?_⟩
        · simp [hav, deserialize_asks ha]
        · simp only [State.authorized, Option.isSome_some, true_iff]
          exact ⟨_, List.mem_cons_self, a, err, ha, hl⟩
    · obtain ⟨j, hj, -⟩ := C62_malformed login s r hv
      unfold sessionAfter at h
      rw [hj] at h
      have := ih s hs h
      have hav : authorizeValid r = false := by
        rw [← Bool.not_eq_true, authorizeValid_iff]
        exact hv
      refine ⟨?_, ?_⟩
      · rw [this.1]
        simp [hav]
      · rw [this.2]
        constructor
        · rintro ⟨e, he, w⟩
          exact ⟨e, List.mem_cons_of_mem _ he, w⟩
        · rintro ⟨e, he, a, err, w⟩
          rcases List.mem_cons.1 he with rfl | he
          · exact absurd ⟨a, w.1⟩ hv
          · exact ⟨e, he, a, err, w⟩

/-! Difficulties, extra nonces and masks of a session. -/

/-- **C63** Before a client is subscribed neither a difficulty nor an extra nonce can be set. -/
theorem C63_unsubscribed (c : Compare D) (s : State D) (h : s.subscribed = false) (d : D) (n : Extranonce) :
    s.setDifficulty c d = .threw s ∧ s.setExtranonce n = .threw s := by
  unfold State.setDifficulty State.setExtranonce
  simp [h]

/-- **C63** Setting a difficulty: it is never one below the minimum, nothing but the pending difficulty changes, and the change is
reported exactly if the pending difficulty is then another. -/
theorem C63_difficulty (c : Compare D) (hc : ∀ a, c.eq a a = true) (s s' : State D) (d : D) (b : Bool)
    (h : s.setDifficulty c d = .done s' b) :
    s' = { s with nextDifficulty := s'.nextDifficulty } ∧ (b = true ↔ c.eq s'.nextDifficulty s.nextDifficulty = false) ∧
      (b = true → s'.nextDifficulty = d ∧ ∀ m, s.minimum = some m → c.lt d m = false) ∧
      (b = false → s' = s ∧ (c.eq d s.nextDifficulty = true ∨ ∃ m, s.minimum = some m ∧ c.lt d m = true)) := by
  unfold State.setDifficulty at h
  split at h
  · simp at h
  · cases hm : s.minimum with
    | none =>
      simp only [hm] at h
      split at h
      · next he =>
        simp only [Step.done.injEq] at h
        obtain ⟨rfl, rfl⟩ := h
        exact ⟨by rw [← hm], by simp [hc], by simp, fun _ => ⟨rfl, .inl he⟩⟩
      · next he =>
        simp only [Step.done.injEq] at h
        obtain ⟨rfl, rfl⟩ := h
        exact ⟨rfl, by simpa using he, fun _ => ⟨rfl, by simp⟩, by simp⟩
    | some m =>
      simp only [hm] at h
      split at h
      · next hlt =>
        simp only [Step.done.injEq] at h
        obtain ⟨rfl, rfl⟩ := h
        exact ⟨by rw [← hm], by simp [hc], by simp, fun _ => ⟨rfl, .inr ⟨m, rfl, hlt⟩⟩⟩
      · next hlt =>
        split at h
        · next he =>
          simp only [Step.done.injEq] at h
          obtain ⟨rfl, rfl⟩ := h
          exact ⟨by rw [← hm], by simp [hc], by simp, fun _ => ⟨rfl, .inl he⟩⟩
        · next he =>
          simp only [Step.done.injEq] at h
          obtain ⟨rfl, rfl⟩ := h
          refine ⟨rfl, by simpa using he, fun _ => ⟨rfl, ?_⟩, by simp⟩
          intro m' hm'
          simp only [Option.some.injEq] at hm'
          subst hm'
          simpa using hlt

/-- Difficulties that are whole numbers. -/
def natCompare : Compare Nat := ⟨fun a b => decide (a < b), fun a b => decide (a = b)⟩

example : ∃ s', State.setDifficulty natCompare { subscriptions := 1, minimum := some 5, nextDifficulty := 6 } 7 = .done s' true ∧
    s'.nextDifficulty = 7 := ⟨_, rfl, rfl⟩

example : State.setDifficulty natCompare { subscriptions := 1, minimum := some 5, nextDifficulty := 6 } 4 =
    .done { subscriptions := 1, minimum := some 5, nextDifficulty := 6 } false := rfl

/-- **C63** Setting an extra nonce: the change is reported exactly if the pending extra nonce is then another, and nothing else
changes. -/
theorem C63_extranonce (s s' : State D) (n : Extranonce) (b : Bool) (h : s.setExtranonce n = .done s' b) :
    s' = { s with nextExtranonce := s'.nextExtranonce } ∧ (b = true ↔ s'.nextExtranonce ≠ s.nextExtranonce) ∧
      (b = true → s'.nextExtranonce = n) := by
  unfold State.setExtranonce at h
  split at h
  · simp at h
  · split at h
    · simp only [Step.done.injEq] at h
      obtain ⟨rfl, rfl⟩ := h
      simp
    · next he =>
      simp only [Step.done.injEq] at h
      obtain ⟨rfl, rfl⟩ := h
      simp only [not_or] at he
      simpa using fun h => he.1 h.symm

example : ∃ s', State.setExtranonce (D := Nat) { subscriptions := 1, nextDifficulty := 0 } ⟨7, 8⟩ = .done s' true ∧
    s'.nextExtranonce = ⟨7, 8⟩ := ⟨_, rfl, rfl⟩

/-- **C63** A change of the mask in effect is always reported.  Missing: that nothing else is (`C63_false_mask`). -/
theorem C63_mask_partial (s : State D) (x : BitVec 32) (h : (s.setVersionMask x).2 = false) :
    (s.setVersionMask x).1 = s ∧ s.mask.get = some x := by
  unfold State.setVersionMask at h ⊢
  split at h
  · next hx =>
    rw [if_pos hx]
    exact ⟨rfl, hx⟩
  · simp at h

/-- **C63, false as stated** Setting the same mask again is reported as a change although nothing is changed, where the mask is
not within that of the client. -/
theorem C63_false_mask (s : State D) (x : BitVec 32) (hx : s.mask.localMask = x) (h : ¬ Spec.Within x s.mask.requested.mask) :
    s.setVersionMask x = (s, true) := by
  have hne : s.mask.get ≠ some x := fun e => h (C61_agreed _ _ _ e).2.1
  unfold State.setVersionMask
  rw [if_neg hne]
  subst hx
  rfl

example : State.setVersionMask (D := Nat) { nextDifficulty := 0, mask := ⟨0xff, { mask := 0x0f }⟩ } 0xff =
    ({ nextDifficulty := 0, mask := ⟨0xff, { mask := 0x0f }⟩ }, true) :=
  C63_false_mask _ _ rfl (by
    intro h
    have := h 7 (by decide)
    simp at this)

/-- **C63, false as stated** Sending a mask that leaves the client too few bits is undefined behaviour: the mask in effect is sent
although there is none. -/
theorem C63_false_send (s : State D) (x : BitVec 32) :
    s.sendVersionMask x = .ub ↔ ¬ ∃ a, Spec.Within a x ∧ Spec.Within a s.mask.requested.mask ∧
      Spec.AtLeast s.mask.requested.minBitCount.toNat a := by
  rw [← C61_none]
  unfold State.sendVersionMask State.setVersionMask
  by_cases hx : s.mask.get = some x
  · rw [if_pos hx]
    simp only [reduceCtorEq, false_iff]
    intro h
    have := C61_agreed _ _ _ hx
    exact (C61_none _ _).1 h ⟨x, fun i hi => hi, this.2.1, this.2.2.2⟩
  · rw [if_neg hx]
    simp only [MaskParams.set, MaskParams.get]
    cases makeMask x s.mask.requested <;> simp

/-- **C63** What is sent is the mask that is then in effect, which is within the one given and within that of the client, and nothing but the mask changes. -/
theorem C63_sent (s s' : State D) (x m : BitVec 32) (h : s.sendVersionMask x = .done s' (some m)) :
    s'.mask.get = some m ∧ Spec.Within m x ∧ Spec.Within m s.mask.requested.mask ∧ s' = { s with mask := ⟨x, s.mask.requested⟩ } := by
  unfold State.sendVersionMask State.setVersionMask at h
  split at h
  · cases h
  · rename_i t e
    split at e
    · cases e
    · cases e
      split at h
      · rename_i k hk
        cases h
        have := C61_agreed _ _ _ hk
        exact ⟨hk, this.1, this.2.1, rfl⟩
      · cases h

/-- **C63** After the minimum has been set, to whatever it was before, no lower difficulty is set. -/
theorem C63_minimum (c : Compare D) (hc : ∀ a, c.eq a a = true) (s s' : State D) (m d : D) (h : (s.setMinimum (some m)).setDifficulty c d = .done s' true) :
    c.lt d m = false ∧ s'.nextDifficulty = d ∧ s'.minimum = some m := by
  obtain ⟨h1, -, h2, -⟩ := C63_difficulty c hc _ s' d true h
  refine ⟨(h2 rfl).2 m rfl, (h2 rfl).1, ?_⟩
  rw [h1]
  rfl

/-- **C63, false as stated** A minimum that is raised later leaves a lower difficulty pending. -/
theorem C63_false_raised : ∃ s : State Nat, State.setDifficulty natCompare { subscriptions := 1, nextDifficulty := 0 } 3 = .done s true ∧
    (s.setMinimum (some 5)).nextDifficulty = 3 := ⟨_, rfl, rfl⟩

end Verif.Stratum
