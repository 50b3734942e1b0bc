import Verif.Stratum.Params
import Verif.Stratum.MiningLemmas
import Verif.Stratum.MessageProps

/-
Property C110: logins, subscriptions and the parameters of the smaller notifications, read back.
-/

namespace Verif.Stratum

open Verif.Net Verif.Text

theorem readSessionId_write (x : BitVec 32) : readSessionId (writeSessionId x) = some x := by
  unfold readSessionId writeSessionId
  simp [hexWrite_length, hexRead_write, big_wfix]

/-- **C110** A login and a request for subscription are read back as they were, with and without a password or an extra nonce. -/
theorem C110_requests (l : Login) (s : Subscribe) :
    Login.deserialize l.serialize = some l ∧ Subscribe.deserialize s.serialize = s := by
  constructor
  · obtain ⟨u, p⟩ := l
    cases p <;> rfl
  · obtain ⟨u, x⟩ := s
    cases x with
    | none => rfl
    | some x => simp [Subscribe.serialize, Subscribe.deserialize, readSessionId_write]

theorem readSubscriptions_write (l : List Subscription) (h : ∀ s ∈ l, Spec.named s.method) :
    readSubscriptions (l.map Subscription.json) = some (some l) := by
  induction l with
  | nil => rfl
  | cons s l ih =>
    obtain ⟨m, id⟩ := s
    have hm : Spec.named m := h _ List.mem_cons_self
    simp only [List.map_cons, readSubscriptions, Subscription.json, Subscription.ofJson, named_fromText hm,
      if_neg (named_ne_unset hm), ih fun s hs => h s (List.mem_cons_of_mem _ hs)]

/-- **C110** The answer to a request for subscription is read back as it was, if the extra nonce has a size from 1 to 2^32 - 1 and
the subscriptions are to methods that have names.  Missing: the others. -/
theorem C110_answer_partial (p : Subscribed) (h : ∀ s ∈ p.subscriptions, Spec.named s.method)
    (h0 : 0 < p.extranonce.extraNonce2Size) (h1 : p.extranonce.extraNonce2Size < 2 ^ 32) :
    Subscribed.deserialize p.serialize = some p := by
  obtain ⟨subs, x, n⟩ := p
  have hv : Subscribed.valid ⟨subs, ⟨x, n⟩⟩ = true := by simpa [Subscribed.valid] using h0
  unfold Subscribed.serialize
  rw [hv]
  simp only [Bool.not_true, Bool.false_eq_true, if_false]
  unfold Subscribed.deserialize
  simp only [readSessionId_write, readSubscriptions_write subs h, Int.toNat_natCast]
  simp only at h1
  rw [if_neg (by omega), Nat.mod_eq_of_lt h1]

example : Subscribed.deserialize (Subscribed.serialize ⟨[⟨.setDifficulty, "1".toList⟩, ⟨.notify, "2".toList⟩], ⟨7, 8⟩⟩) =
    some ⟨[⟨.setDifficulty, "1".toList⟩, ⟨.notify, "2".toList⟩], ⟨7, 8⟩⟩ :=
  C110_answer_partial _ (by
    intro s hs
    simp only [List.mem_cons, List.not_mem_nil, or_false] at hs
    rcases hs with rfl | rfl
    · exact ⟨_, by simp [Spec.names]; rfl⟩
    · exact ⟨_, by simp [Spec.names]; rfl⟩) (by decide) (by decide)

/-- The subscriptions that can be read. -/
def Spec.readable (j : Json) : Prop := ∃ m t, j = .arr [.str m, .str t] ∧ Method.fromText m ≠ .unset

theorem readSubscriptions_none (l : List Json) : readSubscriptions l = none ↔
    ∃ before m bad after, l = before ++ .arr [.str m, bad] :: after ∧ (∀ t, bad ≠ .str t) ∧ ∀ b ∈ before, Spec.readable b := by
  induction l with
  | nil => simp [readSubscriptions]
  | cons j l ih =>
    unfold readSubscriptions
    have hj : Subscription.ofJson j = none ↔ ∃ m bad, j = .arr [.str m, bad] ∧ ∀ t, bad ≠ .str t := by
      unfold Subscription.ofJson
      split
      · simp
      · rename_i m b hb
        refine ⟨fun _ => ⟨m, b, rfl, fun t h => hb t h⟩, fun _ => rfl⟩
      · rename_i h1 h2
        simp only [reduceCtorEq, false_iff, not_exists, not_and]
        exact fun m b h => absurd h (h2 m b)
    cases ho : Subscription.ofJson j with
    | none =>
      simp only [true_iff]
      obtain ⟨m, bad, rfl, hb⟩ := hj.1 ho
      exact ⟨[], m, bad, l, rfl, hb, by simp⟩
    | some z =>
      have hnot : ¬ ∃ m bad, j = .arr [.str m, bad] ∧ ∀ t, bad ≠ .str t := fun h => by
        rw [hj.2 h] at ho; cases ho
      by_cases hz : z.method = .unset
      · simp only [hz, if_true, reduceCtorEq, false_iff]
        rintro ⟨before, m, bad, after, h1, h2, h3⟩
        cases before with
        | nil => cases h1; exact hnot ⟨_, _, rfl, h2⟩
        | cons b before =>
          cases h1
          obtain ⟨m', t, rfl, hm⟩ := h3 _ List.mem_cons_self
          cases ho
          exact hm hz
      · simp only [hz, if_false]
        refine Iff.trans (b := readSubscriptions l = none) ?_ ?_
        · cases readSubscriptions l with
          | none => simp
          | some x => cases x <;> simp
        rw [ih]
        constructor
        · rintro ⟨before, m, bad, after, rfl, h2, h3⟩
          refine ⟨j :: before, m, bad, after, rfl, h2, fun b hb => ?_⟩
          rcases List.mem_cons.1 hb with rfl | hb
          · unfold Subscription.ofJson at ho
            split at ho
            · cases ho; exact ⟨_, _, rfl, hz⟩
            · cases ho
            · cases ho; exact absurd rfl hz
          · exact h3 b hb
        · rintro ⟨before, m, bad, after, h1, h2, h3⟩
          cases before with
          | nil => cases h1; exact absurd ⟨_, _, rfl, h2⟩ hnot
          | cons b before =>
            cases h1
            exact ⟨before, m, bad, after, rfl, h2, fun b hb => h3 b (List.mem_cons_of_mem _ hb)⟩

/-- **C110, false as stated** Exactly which answers are not called invalid, but end with an exception of the JSON library: those in which, after subscriptions that can be read, there
is one whose id is not text. -/
theorem C110_false_thrown (p : List Json) : Subscribed.deserialize p = none ↔
    ∃ before m bad after id n x, p = [.arr (before ++ .arr [.str m, bad] :: after), id, .int n] ∧ 0 ≤ n ∧ readSessionId id = some x ∧
      (∀ t, bad ≠ .str t) ∧ ∀ b ∈ before, Spec.readable b := by
  unfold Subscribed.deserialize
  split
  · rename_i subs id n
    by_cases hn : n < 0
    · simp only [hn, if_true, reduceCtorEq, false_iff]
      rintro ⟨_, _, _, _, _, _, _, h, h0, -⟩
      cases h; omega
    · simp only [hn, if_false]
      cases hx : readSessionId id with
      | none =>
        simp only [reduceCtorEq, false_iff]
        rintro ⟨_, _, _, _, _, _, _, h, -, h1, -⟩
        cases h; rw [hx] at h1; cases h1
      | some x =>
        simp only
        refine Iff.trans (b := readSubscriptions subs = none) ?_ ?_
        · cases readSubscriptions subs with
          | none => simp
          | some y => cases y <;> simp
        rw [readSubscriptions_none]
        constructor
        · rintro ⟨before, m, bad, after, rfl, h2, h3⟩
          exact ⟨before, m, bad, after, id, n, x, rfl, by omega, hx, h2, h3⟩
        · rintro ⟨before, m, bad, after, id', n', x', h, -, -, h2, h3⟩
          cases h
          exact ⟨before, m, bad, after, rfl, h2, h3⟩
  · rename_i hp
    simp only [reduceCtorEq, false_iff]
    rintro ⟨_, _, _, _, _, _, _, h, -⟩
    exact hp _ _ _ h

example : Subscribed.deserialize [.arr [.arr [.str "mining.notify".toList, .int 1]], .str "00000007".toList, .int 8] = none := by decide +kernel

/-- **C110, false as stated** One subscription to a method without a name makes all of the answer unreadable. -/
theorem C110_false_nameless (id : List Char) (subs : List Subscription) (x : BitVec 32) (n : Nat) (h : 0 < n) :
    Subscribed.deserialize (Subscribed.serialize ⟨⟨.reconnect, id⟩ :: subs, ⟨x, n⟩⟩) = some {} := by
  have hv : Subscribed.valid ⟨⟨.reconnect, id⟩ :: subs, ⟨x, n⟩⟩ = true := by simpa [Subscribed.valid] using h
  unfold Subscribed.serialize
  rw [hv]
  simp only [Bool.not_true, Bool.false_eq_true, if_false, List.map_cons]
  unfold Subscribed.deserialize
  have hr : readSubscriptions (Subscription.json ⟨.reconnect, id⟩ :: subs.map Subscription.json) = some none := rfl
  simp only [readSessionId_write, hr]
  rw [if_neg (by omega)]

/-- **C110, false as stated** The size of an extra nonce of 2^32 + 8 is read as 8. -/
theorem C110_false_size (x : BitVec 32) :
    Subscribed.deserialize (Subscribed.serialize ⟨[], ⟨x, 2 ^ 32 + 8⟩⟩) = some ⟨[], ⟨x, 8⟩⟩ := by
  have hv : Subscribed.valid ⟨[], ⟨x, 2 ^ 32 + 8⟩⟩ = true := rfl
  unfold Subscribed.serialize
  rw [hv]
  simp only [Bool.not_true, Bool.false_eq_true, if_false, List.map_nil]
  unfold Subscribed.deserialize
  simp only [readSessionId_write, readSubscriptions]
  rfl

/-- **C110, false as stated** Subscriptions to different methods are called the same if their ids are the same. -/
theorem C110_false_same (m m' : Method) (h : m ≠ .unset) (h' : m' ≠ .unset) (id : List Char) :
    Subscription.same ⟨m, id⟩ ⟨m', id⟩ = true := by simp [Subscription.same, h, h']

example : Subscription.same ⟨.notify, "1".toList⟩ ⟨.setDifficulty, "1".toList⟩ = true :=
  C110_false_same _ _ (by decide) (by decide) _

/-- **C110** Difficulties that are whole numbers, extra nonces and messages are read back from their parameters. -/
theorem C110_notifications_partial (n : Nat) (e : Extranonce) (m : List Char) :
    setDifficultyDeserialize (setDifficultySerialize (.int n)) = .int n ∧
      setExtranonceDeserialize (setExtranonceSerialize e) = some e ∧
      showMessageDeserialize (showMessageSerialize m) = m := by
  refine ⟨?_, ?_, rfl⟩
  · simp [setDifficultySerialize, setDifficultyDeserialize]
  · obtain ⟨x, n⟩ := e
    have hx : setExtranonceSerialize ⟨x, n⟩ = [.str (hexWrite (wfix 4 x).reverse), .int n] := rfl
    have hr := readSessionId_write x
    unfold writeSessionId at hr
    rw [hx, setExtranonceDeserialize, if_neg (by omega), hr]
    simp

/-- **C110, false as stated** A difficulty that is not a whole number is valid and is read back as none; no version mask is read
back; and an extra nonce that is nonsense is read as zero. -/
theorem C110_false_notifications (m : BitVec 32) :
    difficultyValid true .real = true ∧ setDifficultyDeserialize (setDifficultySerialize .real) = .null ∧
      setMaskDeserialize (setMaskSerialize m) = .refused ∧
      setExtranonceDeserialize [.str "nonsense".toList, .int 4] = some ⟨0, 4⟩ := by
  refine ⟨rfl, rfl, ?_, by decide +kernel⟩
  unfold setMaskDeserialize setMaskSerialize readVersionMask writeVersionMask
  simp [hexWrite_length, hexRead_write]

/-- **C110** A request for subscription asks for an extra nonce just if it has two parameters that are text, the second of which is
the eight digits of it. -/
theorem C110_subscribe_iff (p : List Json) (x : BitVec 32) :
    (Subscribe.deserialize p).extraNonce1 = some x ↔
      ∃ u s b, p = [.str u, .str s] ∧ s.length = 8 ∧ hexRead s = some b ∧ x = big 32 b := by
  have hid : ∀ j, readSessionId j = some x ↔ ∃ s b, j = .str s ∧ s.length = 8 ∧ hexRead s = some b ∧ x = big 32 b := by
    intro j
    unfold readSessionId
    split
    · rename_i s
      split
      · rename_i hl
        rw [Option.map_eq_some_iff]
        constructor
        · rintro ⟨b, h1, h2⟩
          exact ⟨s, b, rfl, hl, h1, h2.symm⟩
        · rintro ⟨s', b, h1, -, h2, h3⟩
          cases h1
          exact ⟨b, h2, h3.symm⟩
      · rename_i hl
        constructor
        · intro h; cases h
        · rintro ⟨s', b, h1, h2, -⟩
          cases h1
          exact absurd h2 hl
    · rename_i hn
      constructor
      · intro h; cases h
      · rintro ⟨s', b, h1, -⟩
        exact absurd h1 (hn s')
  have key : (Subscribe.deserialize p).extraNonce1 = some x ↔ ∃ u j, p = [.str u, j] ∧ readSessionId j = some x := by
    unfold Subscribe.deserialize
    split
    · simp
    · rename_i u j
      have e : (∃ u' j', [Json.str u, j] = [.str u', j'] ∧ readSessionId j' = some x) ↔ readSessionId j = some x := by
        constructor
        · rintro ⟨u', j', h1, h2⟩
          cases h1
          exact h2
        · exact fun h => ⟨u, j, rfl, h⟩
      rw [e]
      cases hr : readSessionId j with
      | none => simp
      | some y => simp
    · rename_i hn
      constructor
      · intro h; cases h
      · rintro ⟨u, j, h, -⟩
        exact absurd h (hn u j)
  rw [key]
  constructor
  · rintro ⟨u, j, h1, h2⟩
    obtain ⟨s, b, rfl, h3⟩ := (hid j).1 h2
    exact ⟨u, s, b, h1, h3⟩
  · rintro ⟨u, s, b, h1, h3⟩
    exact ⟨u, _, h1, (hid _).2 ⟨s, b, rfl, h3⟩⟩

example : (Subscribe.deserialize [.str "miner".toList, .str "0000000a".toList]).extraNonce1 = some 10 := by decide +kernel

end Verif.Stratum
