import Verif.Stratum.Told
import Verif.Stratum.MiningProps
import Verif.Stratum.ClientSessionProps
import Verif.Stratum.RemoteProps

/-
Property C140: a client works on what it was last told.
Property C141: a server knows the version that the client has said.
-/

namespace Verif.Stratum

open Verif.Net Verif.Text

namespace Spec

/-- The message is a notification with the method and the parameters given. -/
def Notice (j : Json) (method : String) (p : List Json) : Prop :=
  j.get "id".toList = some .null ∧ j.get "method".toList = some (.str method.toList) ∧ j.get "params".toList = some (.arr p)

/-- The message says that the difficulty is a whole number above zero. -/
def SetsDifficulty (j d : Json) : Prop := ∃ n : Int, 0 < n ∧ d = .int n ∧ Notice j "mining.set_difficulty" [.int n]

/-- The message says what the extra nonce is, and how many bytes the other has. -/
def SetsExtranonce (j : Json) (e : Extranonce) : Prop :=
  ∃ s b, Notice j "mining.set_extranonce" [.str s, .int e.extraNonce2Size] ∧ s.length = 8 ∧ hexRead s = some b ∧ e.extraNonce1 = big 32 b

/-- The message names no extra nonce, where it should. -/
def Nonsense (j : Json) (e : Extranonce) : Prop :=
  ∃ s, Notice j "mining.set_extranonce" [.str s, .int e.extraNonce2Size] ∧ ¬ (s.length = 8 ∧ ∃ b, hexRead s = some b) ∧ e.extraNonce1 = 0

/-- The message says what the version mask is. -/
def SetsMask (j : Json) (m : BitVec 32) : Prop :=
  ∃ s b, Notice j "mining.set_version_mask" [.str s] ∧ s.length = 8 ∧ hexRead s = some b ∧ m = little 32 b

/-- The message gives a job that is valid. -/
def GivesJob (V : Validity) (j : Json) (n : Notify) : Prop :=
  ∃ p, Notice j "mining.notify" p ∧ Notify.read p = .ok n ∧ n.valid V = true

/-- The message is one to be shown. -/
def Shows (j : Json) : Prop := ∃ m, Notice j "client.show_message" [.str m]

/-- The last of the messages received that say such a thing, and what it says. -/
def Last (P : Json → α → Prop) (l : List ClientEvent) (a : α) : Prop :=
  ∃ before j after, l = before ++ .receive j :: after ∧ P j a ∧ ∀ k b, .receive k ∈ after → ¬ P k b

/-- Something that came to a server was the answer to its question for the version, and there is a version in it. -/
def Versioned (r : Option Handled × Bool) (v : List Char) : Prop :=
  ∃ j, r = (some (.response .getVersion j), false) ∧ responseValid j = true ∧ j.get "result".toList = some (.str v)

/-- A client as it is made. -/
def listening (version : List Char) (asked : Option Requests) : Listener := { client := fresh version asked }

end Spec

open Spec

/-! Methods and notifications -/

theorem fromText_named (s : List Char) :
    (Method.fromText s = .notify → s = "mining.notify".toList) ∧
    (Method.fromText s = .setDifficulty → s = "mining.set_difficulty".toList) ∧
    (Method.fromText s = .setExtranonce → s = "mining.set_extranonce".toList) ∧
    (Method.fromText s = .setVersionMask → s = "mining.set_version_mask".toList) ∧
    (Method.fromText s = .showMessage → s = "client.show_message".toList) := by
  unfold Method.fromText
  split
  · next h => exact ⟨fun _ => h, (fun h => by cases h), (fun h => by cases h), (fun h => by cases h), fun h => by cases h⟩
  split
  · refine ⟨?_, ?_, ?_, ?_, ?_⟩ <;> intro h <;> cases h
  split
  · refine ⟨?_, ?_, ?_, ?_, ?_⟩ <;> intro h <;> cases h
  split
  · refine ⟨?_, ?_, ?_, ?_, ?_⟩ <;> intro h <;> cases h
  split
  · refine ⟨?_, ?_, ?_, ?_, ?_⟩ <;> intro h <;> cases h
  split
  · next h => exact ⟨(fun h => by cases h), fun _ => h, (fun h => by cases h), (fun h => by cases h), fun h => by cases h⟩
  split
  · next h => exact ⟨(fun h => by cases h), (fun h => by cases h), fun _ => h, (fun h => by cases h), fun h => by cases h⟩
  split
  · next h => exact ⟨(fun h => by cases h), (fun h => by cases h), (fun h => by cases h), fun _ => h, fun h => by cases h⟩
  split
  · refine ⟨?_, ?_, ?_, ?_, ?_⟩ <;> intro h <;> cases h
  split
  · next h => exact ⟨(fun h => by cases h), (fun h => by cases h), (fun h => by cases h), (fun h => by cases h), fun _ => h⟩
  · refine ⟨?_, ?_, ?_, ?_, ?_⟩ <;> intro h <;> cases h

/-- The messages that are notifications with a method. -/
theorem notice_iff {j : Json} {name : String} {m : Method} (hm : m ≠ .unset) (h1 : Method.fromText name.toList = m)
    (h2 : ∀ s, Method.fromText s = m → s = name.toList) :
    (notificationValid j && decide (methodOf j = m)) = true ↔ ∃ p, Notice j name p := by
  unfold notificationValid Notice
  constructor
  · intro h
    simp only [Bool.and_eq_true, decide_eq_true_eq] at h
    obtain ⟨⟨⟨-, hp⟩, hi⟩, he⟩ := h
    have hmeth : ∃ s, j.get "method".toList = some (.str s) ∧ Method.fromText s = m := by
      unfold methodOf at he
      split at he
      · next s hs => exact ⟨s, hs, he⟩
      · exact absurd he.symm hm
    obtain ⟨s, hs, hs'⟩ := hmeth
    rw [h2 s hs'] at hs
    have hid : j.get "id".toList = some .null := by
      cases e : j.get "id".toList with
      | none => rw [e] at hi; cases hi
      | some x => rw [e] at hi; cases x <;> first | rfl | cases hi
    have hpar : ∃ p, j.get "params".toList = some (.arr p) := by
      cases e : j.get "params".toList with
      | none => rw [e] at hp; cases hp
      | some x => rw [e] at hp; cases x <;> first | exact ⟨_, rfl⟩ | cases hp
    obtain ⟨p, hp⟩ := hpar
    exact ⟨p, hid, hs, hp⟩
  · rintro ⟨p, hi, hs, hp⟩
    have he : methodOf j = m := by unfold methodOf; rw [hs]; exact h1
    rw [he, hi, hp]
    simp only [ne_eq, hm, not_false_eq_true, decide_true, Option.map_some, Option.getD_some, Bool.and_true, Bool.true_and]
    rfl

theorem notice_params {j : Json} {name : String} {p : List Json} (h : Notice j name p) : paramsOf j = p := by
  unfold paramsOf
  rw [h.2.2]

theorem notice_job {j : Json} : (notificationValid j && decide (methodOf j = .notify)) = true ↔ ∃ p, Notice j "mining.notify" p :=
  notice_iff (by decide) (by decide) fun s => (fromText_named s).1

theorem notice_difficulty {j : Json} :
    (notificationValid j && decide (methodOf j = .setDifficulty)) = true ↔ ∃ p, Notice j "mining.set_difficulty" p :=
  notice_iff (by decide) (by decide) fun s => (fromText_named s).2.1

theorem notice_extranonce {j : Json} :
    (notificationValid j && decide (methodOf j = .setExtranonce)) = true ↔ ∃ p, Notice j "mining.set_extranonce" p :=
  notice_iff (by decide) (by decide) fun s => (fromText_named s).2.2.1

theorem notice_mask {j : Json} :
    (notificationValid j && decide (methodOf j = .setVersionMask)) = true ↔ ∃ p, Notice j "mining.set_version_mask" p :=
  notice_iff (by decide) (by decide) fun s => (fromText_named s).2.2.2.1

theorem notice_message {j : Json} :
    (notificationValid j && decide (methodOf j = .showMessage)) = true ↔ ∃ p, Notice j "client.show_message" p :=
  notice_iff (by decide) (by decide) fun s => (fromText_named s).2.2.2.2

/-! What each is read as -/

theorem jobNotice_iff {V : Validity} (hV : Notify.valid V {} = false) {j : Json} {n : Notify} : jobNotice V j = .ok n ↔ GivesJob V j n := by
  unfold jobNotice GivesJob
  constructor
  · intro h
    split at h
    · next hc =>
      obtain ⟨p, hp⟩ := notice_job.1 hc
      rw [notice_params hp] at h
      refine ⟨p, hp, ?_⟩
      unfold Notify.deserialize Read.orDefault at h
      cases hr : Notify.read p with
      | ok a =>
        rw [hr] at h
        simp only at h
        split at h
        · next hv => cases h; exact ⟨rfl, hv⟩
        · cases h
      | refused =>
        rw [hr] at h
        simp only at h
        split at h
        · next hv =>
          have : Notify.valid V {} = true := hv
          rw [hV] at this; cases this
        · cases h
      | ub => rw [hr] at h; cases h
    · cases h
  · rintro ⟨p, hp, hr, hv⟩
    rw [if_pos (notice_job.2 ⟨p, hp⟩), notice_params hp]
    unfold Notify.deserialize
    rw [hr]
    simp only [Read.orDefault, hv, if_true]

theorem default_invalid (V : Validity) : Notify.valid V {} = false := by
  unfold Notify.valid
  simp

theorem jobNotice_ne_ub {V : Validity} {j : Json} : jobNotice V j ≠ .ub := by
  unfold jobNotice
  split
  · obtain ⟨n, hn⟩ := C59_defined (paramsOf j)
    rw [hn]
    simp only
    split <;> simp
  · simp

theorem setDifficultyDeserialize_valid {p : List Json} {d : Json} :
    (difficultyValid true (setDifficultyDeserialize p) = true ∧ setDifficultyDeserialize p = d) ↔
      ∃ n : Int, 0 < n ∧ d = .int n ∧ p = [.int n] := by
  constructor
  · rintro ⟨h, rfl⟩
    unfold setDifficultyDeserialize at h ⊢
    split at h
    · next n =>
      split at h
      · next hn =>
        have h' : n > 0 := of_decide_eq_true h
        exact ⟨n, h', by simp [hn], rfl⟩
      · cases h
    · cases h
  · rintro ⟨n, hn, rfl, rfl⟩
    have e : setDifficultyDeserialize [.int n] = .int n := by
      unfold setDifficultyDeserialize
      simp only [if_pos (show 0 ≤ n by omega)]
    rw [e]
    exact ⟨decide_eq_true hn, rfl⟩

theorem difficultyNotice_iff {j d : Json} : difficultyNotice j = .ok d ↔ SetsDifficulty j d := by
  unfold difficultyNotice SetsDifficulty
  constructor
  · intro h
    split at h
    · next hc =>
      rw [Bool.and_eq_true] at hc
      obtain ⟨p, hp⟩ := notice_difficulty.1 hc.1
      rw [notice_params hp] at h hc
      cases h
      obtain ⟨n, h1, h2, h3⟩ := setDifficultyDeserialize_valid.1 ⟨hc.2, rfl⟩
      exact ⟨n, h1, h2, h3 ▸ hp⟩
    · cases h
  · rintro ⟨n, h1, h2, hp⟩
    obtain ⟨h3, h4⟩ := setDifficultyDeserialize_valid.2 ⟨n, h1, h2, rfl⟩
    rw [notice_params hp, if_pos (by rw [Bool.and_eq_true]; exact ⟨notice_difficulty.2 ⟨_, hp⟩, h3⟩), h4]

theorem extranonceNotice_iff {j : Json} {e : Extranonce} : extranonceNotice j = .ok e ↔ SetsExtranonce j e ∨ Nonsense j e := by
  unfold extranonceNotice
  have key : ∀ p, setExtranonceDeserialize p = some e ↔
      ∃ s, p = [.str s, .int e.extraNonce2Size] ∧ e.extraNonce1 = (readSessionId (.str s)).getD 0 := by
    intro p
    obtain ⟨x, k⟩ := e
    constructor
    · intro h
      unfold setExtranonceDeserialize at h
      split at h
      · next s n =>
        split at h
        · cases h
        · next hn =>
          cases h
          refine ⟨s, ?_, rfl⟩
          simp only [Int.toNat_of_nonneg (show 0 ≤ n by omega)]
      · cases h
    · rintro ⟨s, rfl, hx⟩
      unfold setExtranonceDeserialize
      simp only at hx ⊢
      rw [if_neg (by omega), hx]
      simp
  have kind : ∀ s : List Char, ∀ x : BitVec 32, x = (readSessionId (.str s)).getD 0 ↔
      (∃ b, s.length = 8 ∧ hexRead s = some b ∧ x = big 32 b) ∨ (¬ (s.length = 8 ∧ ∃ b, hexRead s = some b) ∧ x = 0) := by
    intro s x
    unfold readSessionId
    by_cases hl : s.length = 8
    · simp only [hl, if_true, true_and]
      cases hexRead s with
      | none => simp
      | some b => simp
    · simp [hl]
  constructor
  · intro h
    split at h
    · next hc =>
      obtain ⟨p, hp⟩ := notice_extranonce.1 hc
      rw [notice_params hp] at h
      split at h
      · next e' he =>
        cases h
        obtain ⟨s, rfl, hx⟩ := (key p).1 he
        rcases (kind s _).1 hx with ⟨b, h1, h2, h3⟩ | ⟨h1, h2⟩
        · exact Or.inl ⟨s, b, hp, h1, h2, h3⟩
        · exact Or.inr ⟨s, hp, h1, h2⟩
      · cases h
    · cases h
  · intro h
    have : ∃ s, Notice j "mining.set_extranonce" [.str s, .int e.extraNonce2Size] ∧ e.extraNonce1 = (readSessionId (.str s)).getD 0 := by
      rcases h with ⟨s, b, hp, h1, h2, h3⟩ | ⟨s, hp, h1, h2⟩
      · exact ⟨s, hp, (kind s _).2 (Or.inl ⟨b, h1, h2, h3⟩)⟩
      · exact ⟨s, hp, (kind s _).2 (Or.inr ⟨h1, h2⟩)⟩
    obtain ⟨s, hp, hx⟩ := this
    rw [if_pos (notice_extranonce.2 ⟨_, hp⟩), notice_params hp, (key _).2 ⟨s, rfl, hx⟩]

theorem maskNotice_ne_ok {j : Json} {m : BitVec 32} : maskNotice j ≠ .ok m := by
  unfold maskNotice setMaskDeserialize readVersionMask
  split
  · split
    · split
      · simp
      · split <;> simp
    · simp
  · simp

theorem maskNotice_ub {j : Json} : maskNotice j = .ub ↔ ∃ s, Notice j "mining.set_version_mask" [.str s] ∧ s.length = 8 ∧ hexRead s = none := by
  unfold maskNotice
  constructor
  · intro h
    split at h
    · next hc =>
      obtain ⟨p, hp⟩ := notice_mask.1 hc
      rw [notice_params hp] at h
      unfold setMaskDeserialize at h
      split at h
      · next s =>
        unfold readVersionMask at h
        split at h
        · cases h
        · next hl =>
          split at h
          · cases h
          · next hr => exact ⟨s, hp, by simpa using hl, hr⟩
      · cases h
    · cases h
  · rintro ⟨s, hp, hl, hr⟩
    rw [if_pos (notice_mask.2 ⟨_, hp⟩), notice_params hp]
    simp only [setMaskDeserialize, readVersionMask, hl, hr, ne_eq, not_true_eq_false, if_false]

theorem messageNotice_iff {j : Json} : (∃ m, messageNotice j = .ok m) ↔ Shows j := by
  unfold messageNotice Shows
  constructor
  · rintro ⟨m, h⟩
    split at h
    · next hc =>
      obtain ⟨p, hp⟩ := notice_message.1 hc
      rw [notice_params hp] at h
      split at h
      · next s => exact ⟨s, hp⟩
      · cases h
    · cases h
  · rintro ⟨m, hp⟩
    exact ⟨m, by rw [if_pos (notice_message.2 ⟨_, hp⟩), notice_params hp]⟩

theorem messageNotice_ne_ub {j : Json} : messageNotice j ≠ .ub := by
  unfold messageNotice
  split
  · split <;> simp
  · simp

theorem extranonceNotice_ne_ub {j : Json} : extranonceNotice j ≠ .ub := by
  unfold extranonceNotice
  split
  · split <;> simp
  · simp

theorem difficultyNotice_ne_ub {j : Json} : difficultyNotice j ≠ .ub := by
  unfold difficultyNotice
  split <;> simp

/-- Two methods are not the same. -/
theorem notice_same {j : Json} {a b : String} {p q : List Json} (h : Notice j a p) (h' : Notice j b q) : a = b := by
  have := h.2.1.symm.trans h'.2.1
  simp only [Option.some.injEq, Json.str.injEq] at this
  exact String.toList_inj.1 this

/-! What a notification does -/

theorem job_notice {V : Validity} {j : Json} {n : Notify} (h : GivesJob V j n) : ∃ p, Notice j "mining.notify" p := ⟨h.choose, h.choose_spec.1⟩

theorem difficulty_notice {j d : Json} (h : SetsDifficulty j d) : ∃ p, Notice j "mining.set_difficulty" p := by
  obtain ⟨n, -, -, h⟩ := h
  exact ⟨_, h⟩

theorem extranonce_notice {j : Json} {e : Extranonce} (h : SetsExtranonce j e ∨ Nonsense j e) : ∃ p, Notice j "mining.set_extranonce" p := by
  rcases h with ⟨s, b, h, -⟩ | ⟨s, h, -⟩ <;> exact ⟨_, h⟩

theorem shows_notice {j : Json} (h : Shows j) : ∃ p, Notice j "client.show_message" p := ⟨_, h.choose_spec⟩

theorem notice_valid {j : Json} {name : String} {p : List Json} (h : Notice j name p) (hn : Method.fromText name.toList ≠ .unset) :
    notificationValid j = true := by
  obtain ⟨hi, hs, hp⟩ := h
  unfold notificationValid methodOf
  rw [hi, hs, hp]
  simp only [hn, ne_eq, not_false_eq_true, decide_true, Option.map_some, Option.getD_some, Bool.true_and]
  rfl

/-- What comes of a notification, by what it is. -/
inductive Received (V : Validity) (t : Told) (j : Json) : Step Told Unit → Prop
  | job (n) : GivesJob V j n → Received V t j (.done { t with job := some n } ())
  | difficulty (d) : SetsDifficulty j d → Received V t j (.done { t with difficulty := some d } ())
  | extranonce (e) : SetsExtranonce j e ∨ Nonsense j e → Received V t j (.done { t with extranonce := some e } ())
  | undefined (s) : Notice j "mining.set_version_mask" [.str s] → s.length = 8 → hexRead s = none → Received V t j .ub
  | message : Shows j → Received V t j (.done t ())
  | none : (¬ ∃ n, GivesJob V j n) → (¬ ∃ d, SetsDifficulty j d) → (¬ ∃ e, SetsExtranonce j e ∨ Nonsense j e) → ¬ Shows j →
      (¬ ∃ s, Notice j "mining.set_version_mask" [.str s] ∧ s.length = 8 ∧ hexRead s = Option.none) → Received V t j (.threw t)

theorem received (V : Validity) (t : Told) (j : Json) : Received V t j (t.receive V j) := by
  unfold Told.receive
  cases h1 : jobNotice V j with
  | ub => exact absurd h1 jobNotice_ne_ub
  | ok n => exact .job n ((jobNotice_iff (default_invalid V)).1 h1)
  | refused =>
  cases h2 : difficultyNotice j with
  | ub => exact absurd h2 difficultyNotice_ne_ub
  | ok d => exact .difficulty d (difficultyNotice_iff.1 h2)
  | refused =>
  cases h3 : extranonceNotice j with
  | ub => exact absurd h3 extranonceNotice_ne_ub
  | ok e => exact .extranonce e (extranonceNotice_iff.1 h3)
  | refused =>
  cases h4 : maskNotice j with
  | ub =>
    obtain ⟨s, h, h', h''⟩ := maskNotice_ub.1 h4
    exact .undefined s h h' h''
  | ok m => exact absurd h4 maskNotice_ne_ok
  | refused =>
  cases h5 : messageNotice j with
  | ub => exact absurd h5 messageNotice_ne_ub
  | ok m => exact .message (messageNotice_iff.1 ⟨m, h5⟩)
  | refused =>
    refine .none ?_ ?_ ?_ ?_ ?_
    · rintro ⟨n, hn⟩
      rw [(jobNotice_iff (default_invalid V)).2 hn] at h1; cases h1
    · rintro ⟨n, hn⟩
      rw [difficultyNotice_iff.2 hn] at h2; cases h2
    · rintro ⟨n, hn⟩
      rw [extranonceNotice_iff.2 hn] at h3; cases h3
    · intro hn
      obtain ⟨m, hm⟩ := messageNotice_iff.2 hn
      rw [hm] at h5; cases h5
    · rintro hn
      rw [maskNotice_ub.2 hn] at h4; cases h4

/-- What one field is after a step: what the notification says, or what it was. -/
def FieldOf (f : Told → Option α) (P : Json → α → Prop) (V : Validity) : Prop :=
  ∀ t j t', (t.receive V j = .done t' () ∨ t.receive V j = .threw t') →
    ∀ a, f t' = some a ↔ P j a ∨ (¬ ∃ b, P j b) ∧ f t = some a

theorem difficulty_unique {j d d' : Json} (h : SetsDifficulty j d) (h' : SetsDifficulty j d') : d = d' := by
  obtain ⟨n, -, rfl, -, -, hp⟩ := h
  obtain ⟨n', -, rfl, -, -, hp'⟩ := h'
  have := hp.symm.trans hp'
  simpa using this

theorem extranonce_unique {j : Json} {e e' : Extranonce} (h : SetsExtranonce j e ∨ Nonsense j e) (h' : SetsExtranonce j e' ∨ Nonsense j e') :
    e = e' := by
  have h1 := extranonceNotice_iff.2 h
  have h2 := extranonceNotice_iff.2 h'
  rw [h1] at h2
  cases h2
  rfl

theorem job_unique {V : Validity} {j : Json} {n n' : Notify} (h : GivesJob V j n) (h' : GivesJob V j n') : n = n' := by
  have h1 := (jobNotice_iff (default_invalid V)).2 h
  have h2 := (jobNotice_iff (default_invalid V)).2 h'
  rw [h1] at h2
  cases h2
  rfl

theorem apart {j : Json} {a b : String} (hab : a ≠ b) (h : ∃ p, Notice j a p) (h' : ∃ p, Notice j b p) : False := by
  obtain ⟨p, hp⟩ := h
  obtain ⟨q, hq⟩ := h'
  exact hab (notice_same hp hq)

theorem set_iff {P : Json → α → Prop} {j : Json} {a : α} (hu : ∀ b c, P j b → P j c → b = c) (h : P j a) (o : Option α) (c : α) :
    (some a = some c) ↔ P j c ∨ (¬ ∃ b, P j b) ∧ o = some c := by
  constructor
  · intro e; cases e; exact Or.inl h
  · rintro (h' | ⟨h', -⟩)
    · rw [hu a c h h']
    · exact absurd ⟨a, h⟩ h'

theorem kept_iff {P : Json → α → Prop} {j : Json} (h : ¬ ∃ b, P j b) (o : Option α) (c : α) :
    (o = some c) ↔ P j c ∨ (¬ ∃ b, P j b) ∧ o = some c :=
  ⟨fun e => Or.inr ⟨h, e⟩, fun e => e.elim (fun e => absurd ⟨c, e⟩ h) (·.2)⟩

theorem field_difficulty (V : Validity) : FieldOf Told.difficulty SetsDifficulty V := by
  intro t j t' h a
  have hr := received V t j
  rcases h with h | h <;> rw [h] at hr <;> cases hr
  · next n hn => exact kept_iff (fun ⟨d, hd⟩ => apart (by decide) (job_notice hn) (difficulty_notice hd)) _ _
  · next d hd => exact set_iff (fun b c => difficulty_unique) hd _ _
  · next e he => exact kept_iff (fun ⟨d, hd⟩ => apart (by decide) (extranonce_notice he) (difficulty_notice hd)) _ _
  · next hm => exact kept_iff (fun ⟨d, hd⟩ => apart (by decide) (shows_notice hm) (difficulty_notice hd)) _ _
  · next h1 h2 h3 h4 h5 => exact kept_iff h2 _ _

theorem field_extranonce (V : Validity) : FieldOf Told.extranonce (fun j e => SetsExtranonce j e ∨ Nonsense j e) V := by
  intro t j t' h a
  have hr := received V t j
  rcases h with h | h <;> rw [h] at hr <;> cases hr
  · next n hn => exact kept_iff (P := fun j e => SetsExtranonce j e ∨ Nonsense j e) (fun ⟨d, hd⟩ => apart (by decide) (job_notice hn) (extranonce_notice hd)) _ _
  · next d hd => exact kept_iff (P := fun j e => SetsExtranonce j e ∨ Nonsense j e) (fun ⟨e, he⟩ => apart (by decide) (difficulty_notice hd) (extranonce_notice he)) _ _
  · next e he => exact set_iff (P := fun j e => SetsExtranonce j e ∨ Nonsense j e) (fun b c => extranonce_unique) he _ _
  · next hm => exact kept_iff (P := fun j e => SetsExtranonce j e ∨ Nonsense j e) (fun ⟨d, hd⟩ => apart (by decide) (shows_notice hm) (extranonce_notice hd)) _ _
  · next h1 h2 h3 h4 h5 => exact kept_iff (P := fun j e => SetsExtranonce j e ∨ Nonsense j e) h3 _ _

theorem field_job (V : Validity) : FieldOf Told.job (GivesJob V) V := by
  intro t j t' h a
  have hr := received V t j
  rcases h with h | h <;> rw [h] at hr <;> cases hr
  · next n hn => exact set_iff (fun b c => job_unique) hn _ _
  · next d hd => exact kept_iff (fun ⟨e, he⟩ => apart (by decide) (difficulty_notice hd) (job_notice he)) _ _
  · next e he => exact kept_iff (fun ⟨d, hd⟩ => apart (by decide) (extranonce_notice he) (job_notice hd)) _ _
  · next hm => exact kept_iff (fun ⟨d, hd⟩ => apart (by decide) (shows_notice hm) (job_notice hd)) _ _
  · next h1 h2 h3 h4 h5 => exact kept_iff h1 _ _

/-! Steps -/

theorem client_handled {c : Client} {e : ClientEvent} {c' : Client} {r : ClientReply} (h : c.step e = some (c', r)) (n : Json) :
    r.handled = some (.notification n) ↔ e = .receive n ∧ notificationValid n = true := by
  cases e with
  | receive j =>
    have hrec : (c.remote.receive j).2 = .notification n ↔ j = n ∧ notificationValid n = true := by
      unfold Remote.receive
      by_cases h1 : notificationValid j
      · rw [if_pos h1]
        constructor
        · intro e; cases e; exact ⟨rfl, h1⟩
        · rintro ⟨rfl, -⟩; rfl
      · rw [if_neg h1]
        constructor
        · intro e
          split at e
          · split at e
            · split at e <;> cases e
            · cases e
          · split at e <;> cases e
        · rintro ⟨rfl, h2⟩; exact absurd h2 h1
    unfold Client.step at h
    simp only at h
    have hh : r.handled = some (c.remote.receive j).2 := by
      split at h
      · cases h; rfl
      · cases h; rfl
      · cases h; rfl
      · split at h
        · cases h; rfl
        · cases h; rfl
        · cases h
    rw [hh]
    simp only [Option.some.injEq, hrec, ClientEvent.receive.injEq]
  | _ =>
    simp only [Client.step, Option.some.injEq, Prod.mk.injEq] at h
    obtain ⟨-, rfl⟩ := h
    simp

/-- What one field is after an event. -/
theorem step_field {f : Told → Option α} {P : Json → α → Prop} {V : Validity} (hf : FieldOf f P V)
    (hP : ∀ j a, P j a → notificationValid j = true) {s s' : Listener} {e : ClientEvent} {r : ClientReply}
    (h : s.step V e = some (s', r)) (a : α) :
    f s'.told = some a ↔ (∃ j, e = .receive j ∧ P j a) ∨ (¬ ∃ j b, e = .receive j ∧ P j b) ∧ f s.told = some a := by
  unfold Listener.step at h
  split at h
  · cases h
  · next c r' hc =>
    split at h
    · next n hn =>
      obtain ⟨rfl, hv⟩ := (client_handled hc n).1 hn
      have key : s.told.receive V n = .done s'.told () ∨ s.told.receive V n = .threw s'.told := by
        split at h
        · next t u ht => cases h; exact Or.inl ht
        · next t ht => cases h; exact Or.inr ht
        · cases h
      rw [hf _ _ _ key a]
      simp
    · next hn =>
      cases h
      have hno : ∀ j b, ¬ (e = .receive j ∧ P j b) := by
        rintro j b ⟨rfl, hp⟩
        exact hn j ((client_handled hc j).2 ⟨rfl, hP j b hp⟩)
      constructor
      · intro ha
        exact Or.inr ⟨fun ⟨j, b, hjb⟩ => hno j b hjb, ha⟩
      · rintro (⟨j, hj⟩ | ⟨-, ha⟩)
        · exact absurd hj (hno j a)
        · exact ha

theorem last_cons {P : Json → α → Prop} {e : ClientEvent} {l : List ClientEvent} {a : α} :
    Last P (e :: l) a ↔ Last P l a ∨ (¬ ∃ j b, .receive j ∈ l ∧ P j b) ∧ ∃ j, e = .receive j ∧ P j a := by
  constructor
  · rintro ⟨before, j, after, h1, h2, h3⟩
    cases before with
    | nil =>
      simp only [List.nil_append, List.cons.injEq] at h1
      obtain ⟨rfl, rfl⟩ := h1
      exact Or.inr ⟨fun ⟨k, b, hk, hb⟩ => h3 k b hk hb, j, rfl, h2⟩
    | cons x xs =>
      simp only [List.cons_append, List.cons.injEq] at h1
      obtain ⟨rfl, rfl⟩ := h1
      exact Or.inl ⟨xs, j, after, rfl, h2, h3⟩
  · rintro (⟨before, j, after, rfl, h2, h3⟩ | ⟨h, j, rfl, hj⟩)
    · exact ⟨e :: before, j, after, rfl, h2, h3⟩
    · exact ⟨[], j, l, rfl, hj, fun k b hk hb => h ⟨k, b, hk, hb⟩⟩

theorem run_field {f : Told → Option α} {P : Json → α → Prop} {V : Validity} (hf : FieldOf f P V)
    (hP : ∀ j a, P j a → notificationValid j = true) {s s' : Listener} {l : List ClientEvent} {rs : List ClientReply}
    (h : s.run V l = some (s', rs)) (a : α) :
    f s'.told = some a ↔ Last P l a ∨ (¬ ∃ j b, .receive j ∈ l ∧ P j b) ∧ f s.told = some a := by
  induction l generalizing s rs with
  | nil =>
    simp only [Listener.run, Option.some.injEq, Prod.mk.injEq] at h
    obtain ⟨rfl, -⟩ := h
    constructor
    · exact fun h => Or.inr ⟨by simp, h⟩
    · rintro (⟨b, j, c, h, -⟩ | ⟨-, h⟩)
      · simp at h
      · exact h
  | cons e l ih =>
    simp only [Listener.run] at h
    split at h
    · cases h
    · next s1 r h1 =>
      split at h
      · cases h
      · next s2 rs' h2 =>
        cases h
        rw [ih h2, step_field hf hP h1, last_cons]
        by_cases hl : ∃ j b, ClientEvent.receive j ∈ l ∧ P j b
        · obtain ⟨j, b, hj, hb⟩ := hl
          have n1 : ¬ ¬ ∃ j b, ClientEvent.receive j ∈ l ∧ P j b := fun n => n ⟨j, b, hj, hb⟩
          have n2 : ¬ ¬ ∃ j b, ClientEvent.receive j ∈ e :: l ∧ P j b := fun n => n ⟨j, b, List.mem_cons_of_mem _ hj, hb⟩
          simp only [n1, n2, false_and, or_false]
        · have n2 : (∃ j b, ClientEvent.receive j ∈ e :: l ∧ P j b) ↔ ∃ j b, e = .receive j ∧ P j b := by
            constructor
            · rintro ⟨j, b, hj, hb⟩
              rcases List.mem_cons.1 hj with hj | hj
              · exact ⟨j, b, hj.symm, hb⟩
              · exact absurd ⟨j, b, hj, hb⟩ hl
            · rintro ⟨j, b, rfl, hb⟩
              exact ⟨j, b, List.mem_cons_self, hb⟩
          rw [n2]
          simp only [hl, not_false_eq_true, true_and, or_assoc]

theorem difficulty_valid {j d : Json} (h : SetsDifficulty j d) : notificationValid j = true :=
  notice_valid (difficulty_notice h).choose_spec (by decide)

theorem extranonce_valid {j : Json} {e : Extranonce} (h : SetsExtranonce j e ∨ Nonsense j e) : notificationValid j = true :=
  notice_valid (extranonce_notice h).choose_spec (by decide)

theorem job_valid {V : Validity} {j : Json} {n : Notify} (h : GivesJob V j n) : notificationValid j = true :=
  notice_valid (job_notice h).choose_spec (by decide)

/-- **C140** The difficulty that a client works at is the one that the last of the messages says that say one. -/
theorem C140_difficulty (V : Validity) (version : List Char) (asked : Option Requests) (l : List ClientEvent) (s : Listener)
    (rs : List ClientReply) (h : (listening version asked).run V l = some (s, rs)) (d : Json) :
    s.told.difficulty = some d ↔ Last SetsDifficulty l d := by
  rw [run_field (field_difficulty V) (fun _ _ => difficulty_valid) h]
  simp [listening]

/-- **C140** The job that a client works on is the one that the last of the messages gives that give one. -/
theorem C140_job (V : Validity) (version : List Char) (asked : Option Requests) (l : List ClientEvent) (s : Listener)
    (rs : List ClientReply) (h : (listening version asked).run V l = some (s, rs)) (n : Notify) :
    s.told.job = some n ↔ Last (GivesJob V) l n := by
  rw [run_field (field_job V) (fun _ _ => job_valid) h]
  simp [listening]

/-- **C140** The extra nonce that a client uses is the one that the last of the messages says that say one, if all that should say one do. -/
theorem C140_extranonce_partial (V : Validity) (version : List Char) (asked : Option Requests) (l : List ClientEvent) (s : Listener)
    (rs : List ClientReply) (h : (listening version asked).run V l = some (s, rs)) (hl : ∀ j e, .receive j ∈ l → ¬ Nonsense j e)
    (e : Extranonce) : s.told.extranonce = some e ↔ Last SetsExtranonce l e := by
  rw [run_field (field_extranonce V) (fun _ _ => extranonce_valid) h]
  simp only [listening, reduceCtorEq, and_false, or_false]
  constructor
  · rintro ⟨b, j, c, rfl, h1, h2⟩
    exact ⟨b, j, c, rfl, h1.resolve_right (hl j e (by simp)), fun k x hk hx => h2 k x hk (Or.inl hx)⟩
  · rintro ⟨b, j, c, rfl, h1, h2⟩
    exact ⟨b, j, c, rfl, Or.inl h1, fun k x hk hx => hx.elim (h2 k x hk) (hl k x (by simp [hk]))⟩

/-- **C140, false as stated** A message that should say an extra nonce and does not is taken to say that it is zero. -/
theorem C140_false_extranonce (V : Validity) (version : List Char) (asked : Option Requests) (l : List ClientEvent) (s : Listener)
    (rs : List ClientReply) (h : (listening version asked).run V l = some (s, rs)) (e : Extranonce) :
    s.told.extranonce = some e ↔ Last (fun j e => SetsExtranonce j e ∨ Nonsense j e) l e := by
  rw [run_field (field_extranonce V) (fun _ _ => extranonce_valid) h]
  simp [listening]

theorem receive_mask {V : Validity} {t t' : Told} {j : Json} (h : t.receive V j = .done t' () ∨ t.receive V j = .threw t') :
    t'.mask = t.mask := by
  have hr := received V t j
  rcases h with h | h <;> rw [h] at hr <;> cases hr <;> rfl

theorem step_told {V : Validity} {s s' : Listener} {e : ClientEvent} {r : ClientReply} (h : s.step V e = some (s', r)) :
    (s'.told = s.told ∧ ∀ j, e = .receive j → notificationValid j = false) ∨
      ∃ j, e = .receive j ∧ notificationValid j = true ∧
        (s.told.receive V j = .done s'.told () ∧ r.threw = false ∨ s.told.receive V j = .threw s'.told ∧ r.threw = true) := by
  unfold Listener.step at h
  split at h
  · cases h
  · next c r' hc =>
    split at h
    · next n hn =>
      obtain ⟨rfl, hv⟩ := (client_handled hc n).1 hn
      refine Or.inr ⟨n, rfl, hv, ?_⟩
      have hr' : r'.threw = false := by
        unfold Client.step Remote.receive at hc
        simp only [hv, if_true, Option.some.injEq, Prod.mk.injEq] at hc
        rw [← hc.2]
      split at h
      · next t u ht => cases h; exact Or.inl ⟨ht, hr'⟩
      · next t ht => cases h; exact Or.inr ⟨ht, rfl⟩
      · cases h
    · next hn =>
      cases h
      refine Or.inl ⟨rfl, ?_⟩
      rintro j rfl
      cases hv : notificationValid j with
      | false => rfl
      | true => exact absurd ((client_handled hc j).2 ⟨rfl, hv⟩) (hn j)

/-- **C140, false as stated** No client ever learns a version mask, whatever it is told. -/
theorem C140_false_mask (V : Validity) (version : List Char) (asked : Option Requests) (l : List ClientEvent) (s : Listener)
    (rs : List ClientReply) (h : (listening version asked).run V l = some (s, rs)) : s.told.mask = none := by
  have key : ∀ (s0 : Listener) rs, s0.run V l = some (s, rs) → s.told.mask = s0.told.mask := by
    clear h
    induction l with
    | nil =>
      intro s0 rs h
      simp only [Listener.run, Option.some.injEq, Prod.mk.injEq] at h
      rw [h.1]
    | cons e l ih =>
      intro s0 rs h
      simp only [Listener.run] at h
      split at h
      · cases h
      · next s1 r h1 =>
        split at h
        · cases h
        · next s2 rs' h2 =>
          cases h
          rw [ih _ _ h2]
          rcases step_told h1 with ⟨h3, -⟩ | ⟨j, -, -, ⟨h3, -⟩ | ⟨h3, -⟩⟩
          · rw [h3]
          · exact receive_mask (Or.inl h3)
          · exact receive_mask (Or.inr h3)
  exact key _ _ h

/-- **C140, false as stated** Behaviour is undefined just if a message comes in that says of a version mask that it is eight characters that are
not all digits. -/
theorem C140_false_undefined (V : Validity) (version : List Char) (asked : Option Requests) (l : List ClientEvent) :
    (listening version asked).run V l = none ↔
      ∃ j s, .receive j ∈ l ∧ Notice j "mining.set_version_mask" [.str s] ∧ s.length = 8 ∧ hexRead s = none := by
  have key : ∀ s0 : Listener, s0.run V l = none ↔
      ∃ j s, .receive j ∈ l ∧ Notice j "mining.set_version_mask" [.str s] ∧ s.length = 8 ∧ hexRead s = none := by
    induction l with
    | nil => intro s0; simp [Listener.run]
    | cons e l ih =>
      intro s0
      have hstep : s0.step V e = none ↔
          ∃ j s, e = .receive j ∧ Notice j "mining.set_version_mask" [.str s] ∧ s.length = 8 ∧ hexRead s = none := by
        obtain ⟨c, rs, hc, -⟩ := step_facts s0.client e
        unfold Listener.step
        rw [hc]
        simp only
        cases hh : rs.handled with
        | none =>
          simp only [reduceCtorEq, false_iff]
          rintro ⟨j, s, rfl, hn, -⟩
          have := (client_handled hc j).2 ⟨rfl, notice_valid hn (by decide)⟩
          rw [hh] at this; cases this
        | some x =>
          cases x with
          | notification n =>
            obtain ⟨rfl, hv⟩ := (client_handled hc n).1 hh
            simp only
            have hr := received V s0.told n
            constructor
            · intro h
              split at h
              · cases h
              · cases h
              · next hu =>
                rw [hu] at hr
                cases hr
                next s h1 h2 h3 => exact ⟨n, s, rfl, h1, h2, h3⟩
            · rintro ⟨j, s, hj, h1, h2, h3⟩
              cases hj
              split
              · next t u hu =>
                rw [hu] at hr
                cases hr
                · next hn => exact (apart (by decide) (job_notice hn) ⟨_, h1⟩).elim
                · next hn => exact (apart (by decide) (difficulty_notice hn) ⟨_, h1⟩).elim
                · next hn => exact (apart (by decide) (extranonce_notice hn) ⟨_, h1⟩).elim
                · next hn => exact (apart (by decide) (shows_notice hn) ⟨_, h1⟩).elim
              · next t hu =>
                rw [hu] at hr
                cases hr
                next hn => exact absurd ⟨s, h1, h2, h3⟩ hn
              · rfl
          | _ =>
            simp only [reduceCtorEq, false_iff]
            rintro ⟨j, s, rfl, hn, -⟩
            have := (client_handled hc j).2 ⟨rfl, notice_valid hn (by decide)⟩
            rw [hh] at this; cases this
      simp only [Listener.run]
      cases hs : s0.step V e with
      | none =>
        obtain ⟨j, s, rfl, h⟩ := hstep.1 hs
        simp only [true_iff]
        exact ⟨j, s, List.mem_cons_self, h⟩
      | some x =>
        obtain ⟨s1, r⟩ := x
        have hno : ¬ ∃ j s, e = .receive j ∧ Notice j "mining.set_version_mask" [.str s] ∧ s.length = 8 ∧ hexRead s = none := by
          intro h
          rw [hstep.2 h] at hs; cases hs
        have hi := ih s1
        have hm : (∃ j s, ClientEvent.receive j ∈ e :: l ∧ Notice j "mining.set_version_mask" [.str s] ∧ s.length = 8 ∧ hexRead s = none) ↔
            ∃ j s, ClientEvent.receive j ∈ l ∧ Notice j "mining.set_version_mask" [.str s] ∧ s.length = 8 ∧ hexRead s = none := by
          constructor
          · rintro ⟨j, s, hj, h⟩
            rcases List.mem_cons.1 hj with hj | hj
            · exact absurd ⟨j, s, hj.symm, h⟩ hno
            · exact ⟨j, s, hj, h⟩
          · rintro ⟨j, s, hj, h⟩
            exact ⟨j, s, List.mem_cons_of_mem _ hj, h⟩
        rw [hm, ← hi]
        simp only
        cases s1.run V l <;> simp
  exact key _

/-- **C140** A notification is an exception, and leaves what the client was told as it was, just if it says none of the things that can be said. -/
theorem C140_refused (V : Validity) (s s' : Listener) (j : Json) (r : ClientReply) (hv : notificationValid j = true)
    (h : s.step V (.receive j) = some (s', r)) :
    (r.threw = true ↔ ¬ ((∃ n, GivesJob V j n) ∨ (∃ d, SetsDifficulty j d) ∨ (∃ e, SetsExtranonce j e ∨ Nonsense j e) ∨ Shows j)) ∧
      (r.threw = true → s'.told = s.told) := by
  rcases step_told h with ⟨-, h1⟩ | ⟨k, hk, -, h1⟩
  · rw [h1 j rfl] at hv; cases hv
  · cases hk
    have hr := received V s.told j
    rcases h1 with ⟨h1, h2⟩ | ⟨h1, h2⟩ <;> rw [h1] at hr
    · rw [h2]
      refine ⟨?_, fun h => by cases h⟩
      simp only [Bool.false_eq_true, false_iff, Classical.not_not]
      generalize s'.told = t' at hr
      cases hr
      · next n hn => exact Or.inl ⟨n, hn⟩
      · next n hn => exact Or.inr (Or.inl ⟨n, hn⟩)
      · next n hn => exact Or.inr (Or.inr (Or.inl ⟨n, hn⟩))
      · next hn => exact Or.inr (Or.inr (Or.inr hn))
    · rw [h2]
      generalize s'.told = t' at hr
      cases hr
      next a b c d e => exact ⟨⟨fun _ h => h.elim a fun h => h.elim b fun h => h.elim c d, fun _ => rfl⟩, fun _ => rfl⟩

/-- **C140, false as stated** Whatever a server sends of itself, the client it is sent to takes it for nothing that it knows: there is an exception,
and the client has been told nothing. -/
theorem C140_false_server (V : Validity) (c : Compare Json) (notify : State Json → Notify → State Json) (server server' : State Json)
    (e : ServerSend) (j : Json) (h : server.send c notify e = .done server' (some j)) (s : Listener) :
    s.step V (.receive j) = some (s, { handled := some .threw, threw := true }) := by
  have key : ∃ m p, j = makeNotification m p := by
    cases e <;> simp only [State.send] at h <;> split at h <;> cases h <;> exact ⟨_, _, rfl⟩
  obtain ⟨m, p, rfl⟩ := key
  rfl

/-! The version -/

/-- Only versions are asked for. -/
def OnlyVersions (r : Remote) : Prop := (∀ e ∈ r.table, e.2 = .getVersion) ∧ ∀ e ∈ r.waiting, e.2 = .getVersion

theorem onlyVersions_find {r : Remote} (h : OnlyVersions r) {n : Nat} {m : Method} (hm : r.find n = some m) : m = .getVersion := by
  unfold Remote.find at hm
  rw [Option.map_eq_some_iff] at hm
  obtain ⟨e, he, rfl⟩ := hm
  exact h.1 e (List.mem_of_find?_eq_some he)

theorem onlyVersions_step {a : Asker} (h : OnlyVersions a.remote) (e : AskerEvent) : OnlyVersions (a.step e).1.remote := by
  cases e with
  | ask =>
    refine ⟨h.1, ?_⟩
    intro e he
    simp only [Asker.step, Remote.start, List.mem_append, List.mem_singleton] at he
    rcases he with he | rfl
    · exact h.2 e he
    · rfl
  | finish k =>
    simp only [Asker.step, Remote.finish]
    split
    · next id m hk =>
      refine ⟨?_, fun e he => h.2 e (List.mem_of_mem_eraseIdx he)⟩
      intro e he
      simp only [insertMethod, List.mem_cons, List.mem_filter] at he
      rcases he with rfl | ⟨he, -⟩
      · exact h.2 _ (List.mem_of_getElem? hk)
      · exact h.1 e he
    · exact h
  | receive j =>
    have hr : OnlyVersions (a.remote.receive j).1 := by
      unfold Remote.receive
      split
      · exact h
      · split
        · split
          · split
            · exact ⟨fun e he => h.1 e (List.mem_filter.1 he).1, h.2⟩
            · exact h
          · exact h
        · split <;> exact h
    simp only [Asker.step]
    split
    · exact hr
    · exact hr
    · exact hr
    · unfold Asker.receiveResponse
      split
      · exact hr
      · split <;> exact hr

theorem versionResponse_iff {j : Json} {v : List Char} :
    versionResponse j = some v ↔ responseValid j = true ∧ j.get "result".toList = some (.str v) := by
  unfold versionResponse
  constructor
  · intro h
    split at h
    · next hv =>
      refine ⟨hv, ?_⟩
      unfold resultOf at h
      cases e : j.get "result".toList with
      | none => rw [e] at h; cases h
      | some x => rw [e] at h; cases x <;> first | (cases h; rfl) | cases h
    · cases h
  · rintro ⟨hv, hr⟩
    rw [if_pos hv]
    unfold resultOf
    rw [hr]
    rfl

theorem asker_step {a : Asker} (h : OnlyVersions a.remote) (e : AskerEvent) (v : List Char) :
    ((a.step e).1.version = some v ↔ Versioned (a.step e).2 v ∨ (¬ ∃ w, Versioned (a.step e).2 w) ∧ a.version = some v) ∧
      (∀ m j b, (a.step e).2 = (some (.response m j), b) → m = .getVersion ∧ (b = true ↔ ¬ ∃ w, responseValid j = true ∧
        j.get "result".toList = some (.str w))) := by
  have kept : ∀ (x : Asker) (r : Option Handled × Bool), x.version = a.version → (∀ m j, r.1 ≠ some (.response m j)) →
      (x.version = some v ↔ Versioned r v ∨ (¬ ∃ w, Versioned r w) ∧ a.version = some v) ∧
      (∀ m j b, r = (some (.response m j), b) → m = .getVersion ∧ (b = true ↔ ¬ ∃ w, responseValid j = true ∧
        j.get "result".toList = some (.str w))) := by
    intro x r hx hr
    have hno : ∀ w, ¬ Versioned r w := by
      rintro w ⟨j, rfl, -⟩
      exact hr _ _ rfl
    refine ⟨?_, fun m j b hb => absurd (by rw [hb]) (hr m j)⟩
    rw [hx]
    exact ⟨fun h => Or.inr ⟨fun ⟨w, hw⟩ => hno w hw, h⟩, fun h => h.elim (fun h => absurd h (hno v)) (·.2)⟩
  cases e with
  | ask => exact kept _ _ rfl (fun _ _ h => by cases h)
  | finish k => exact kept _ _ rfl (fun _ _ h => by cases h)
  | receive j =>
    simp only [Asker.step]
    cases hh : (a.remote.receive j).2 with
    | notification n => exact kept _ _ rfl (fun _ _ h => by cases h)
    | request r => exact kept _ _ rfl (fun _ _ h => by cases h)
    | threw => exact kept _ _ rfl (fun _ _ h => by cases h)
    | response m r =>
      obtain ⟨rfl, hv, n, hn, -⟩ := client_receive_response hh
      have hm := onlyVersions_find h hn
      subst hm
      simp only [Asker.receiveResponse, ne_eq, not_true_eq_false, if_false]
      cases hw : versionResponse r with
      | none =>
        have hno : ¬ ∃ w, responseValid r = true ∧ r.get "result".toList = some (.str w) := by
          rintro ⟨w, h'⟩
          rw [versionResponse_iff.2 h'] at hw; cases hw
        have hno' : ∀ w, ¬ Versioned (some (Handled.response .getVersion r), true) w := by
          rintro w ⟨j, h', -⟩
          cases h'
        refine ⟨⟨fun h => Or.inr ⟨fun ⟨w, hw⟩ => hno' w hw, h⟩, fun h => h.elim (fun h => absurd h (hno' v)) (·.2)⟩, ?_⟩
        intro m j b hb
        cases hb
        exact ⟨rfl, fun _ => hno, fun _ => rfl⟩
      | some w =>
        obtain ⟨h1, h2⟩ := versionResponse_iff.1 hw
        have hyes : Versioned (some (Handled.response .getVersion r), false) w := ⟨r, rfl, h1, h2⟩
        refine ⟨?_, ?_⟩
        · constructor
          · intro e
            have e' : some w = some v := e
            cases e'
            exact Or.inl hyes
          · rintro (⟨j, hj, -, h3⟩ | ⟨hn', -⟩)
            · cases hj
              rw [h2] at h3
              cases h3
              rfl
            · exact absurd ⟨w, hyes⟩ hn'
        · intro m j b hb
          cases hb
          exact ⟨rfl, (fun h => by cases h), fun h => absurd ⟨w, h1, h2⟩ h⟩

/-- **C141** The version that a server knows is the one in the last of the answers that had one.
Missing: that errors are not taken for versions (`C141_false_error`), and that the question is answered once (`C141_false_twice`). -/
theorem C141_version_partial (l : List AskerEvent) (v : List Char) :
    (Asker.run {} l).1.version = some v ↔
      ∃ before r after, (Asker.run {} l).2 = before ++ r :: after ∧ Versioned r v ∧ ∀ x ∈ after, ∀ w, ¬ Versioned x w := by
  have key : ∀ a : Asker, OnlyVersions a.remote → ((a.run l).1.version = some v ↔
      (∃ before r after, (a.run l).2 = before ++ r :: after ∧ Versioned r v ∧ ∀ x ∈ after, ∀ w, ¬ Versioned x w) ∨
      (∀ x ∈ (a.run l).2, ∀ w, ¬ Versioned x w) ∧ a.version = some v) := by
    induction l with
    | nil => intro a _; simp [Asker.run]
    | cons e l ih =>
      intro a h
      simp only [Asker.run]
      rw [ih _ (onlyVersions_step h e), (asker_step h e v).1]
      constructor
      · rintro (⟨b, r, c, h1, h2⟩ | ⟨h1, h2 | ⟨h2, h3⟩⟩)
        · exact Or.inl ⟨_ :: b, r, c, by rw [h1]; rfl, h2⟩
        · exact Or.inl ⟨[], _, _, rfl, h2, h1⟩
        · refine Or.inr ⟨?_, h3⟩
          intro x hx w hw
          rcases List.mem_cons.1 hx with rfl | hx
          · exact h2 ⟨w, hw⟩
          · exact h1 x hx w hw
      · rintro (⟨b, r, c, h1, h2, h3⟩ | ⟨h1, h2⟩)
        · cases b with
          | nil =>
            simp only [List.nil_append, List.cons.injEq] at h1
            obtain ⟨rfl, rfl⟩ := h1
            exact Or.inr ⟨h3, Or.inl h2⟩
          | cons x xs =>
            simp only [List.cons_append, List.cons.injEq] at h1
            exact Or.inl ⟨xs, r, c, h1.2, h2, h3⟩
        · exact Or.inr ⟨fun x hx => h1 x (List.mem_cons_of_mem _ hx), Or.inr ⟨fun ⟨w, hw⟩ => h1 _ List.mem_cons_self w hw, h2⟩⟩
  rw [key {} ⟨by simp, by simp⟩]
  simp

/-- **C141** An answer is never to anything but the question for the version, and it is an exception just if there is no version in it. -/
theorem C141_answers (l : List AskerEvent) (m : Method) (j : Json) (b : Bool) (h : (some (.response m j), b) ∈ (Asker.run {} l).2) :
    m = .getVersion ∧ (b = true ↔ ¬ ∃ v, responseValid j = true ∧ j.get "result".toList = some (.str v)) := by
  have key : ∀ a : Asker, OnlyVersions a.remote → (some (.response m j), b) ∈ (a.run l).2 →
      m = .getVersion ∧ (b = true ↔ ¬ ∃ v, responseValid j = true ∧ j.get "result".toList = some (.str v)) := by
    clear h
    induction l with
    | nil => intro a _ h; simp [Asker.run] at h
    | cons e l ih =>
      intro a ha h
      simp only [Asker.run, List.mem_cons] at h
      rcases h with h | h
      · exact (asker_step ha e []).2 m j b h.symm
      · exact ih _ (onlyVersions_step ha e) h
  exact key {} ⟨by simp, by simp⟩ h

theorem asker_answer {a : Asker} {id : BitVec 32} (h : a.remote.find id.toNat = some .getVersion) (result : Json) (e : Option Err) :
    a.remote.receive (makeResponse (.int id.toNat) result e) =
      ({ a.remote with table := a.remote.table.filter fun x => x.1 ≠ id.toNat }, .response .getVersion (makeResponse (.int id.toNat) result e)) := by
  have h1 : notificationValid (makeResponse (.int id.toNat) result e) = false := rfl
  have h2 : responseValid (makeResponse (.int id.toNat) result e) = true := by
    cases e with
    | none => rfl
    | some e => simp only [responseValid]; rfl
  have h3 : idOf (makeResponse (.int id.toNat) result e) = .int id.toNat := rfl
  unfold Remote.receive
  rw [h1, h2, h3]
  simp only [Bool.false_eq_true, if_false, if_true, Int.toNat_natCast, h]

/-- **C141, false as stated** An answer that is an error is taken for the version if it has text as its result. -/
theorem C141_false_error (a : Asker) (id : BitVec 32) (h : a.remote.find id.toNat = some .getVersion) (v : List Char) (e : Err) :
    (a.step (.receive (makeResponse (.int id.toNat) (.str v) (some e)))).1.version = some v ∧
      (a.step (.receive (makeResponse (.int id.toNat) (.str v) (some e)))).2.2 = false := by
  have hv : versionResponse (makeResponse (.int id.toNat) (.str v) (some e)) = some v :=
    versionResponse_iff.2 ⟨by simp only [responseValid]; rfl, rfl⟩
  simp only [Asker.step, asker_answer h, Asker.receiveResponse, hv, ne_eq, not_true_eq_false, if_false]
  exact ⟨trivial, rfl⟩

/-- **C141, false as stated** A server that asks a client of this library for its version gets two answers: the version, and an error that it cannot
tell what it is about, which is an exception. -/
theorem C141_false_twice (a : Asker) (id : BitVec 32) (h : a.remote.find id.toNat = some .getVersion) (c : Client) :
    ∃ m1 m2, c.receiveRequest (makeRequest (.number id) .getVersion []) = [m1, m2] ∧
      (a.step (.receive m1)).1.version = some c.version ∧ (a.step (.receive m1)).2.2 = false ∧
      ((a.step (.receive m1)).1.step (.receive m2)).2 = (some .threw, true) ∧
      ((a.step (.receive m1)).1.step (.receive m2)).1 = (a.step (.receive m1)).1 := by
  have hv : versionResponse (makeResponse (.int id.toNat) (.str c.version) none) = some c.version := versionResponse_iff.2 ⟨rfl, rfl⟩
  have hs : (a.step (.receive (makeResponse (.int id.toNat) (.str c.version) none))) =
      (⟨{ a.remote with table := a.remote.table.filter fun x => x.1 ≠ id.toNat }, some c.version⟩,
        some (.response .getVersion (makeResponse (.int id.toNat) (.str c.version) none)), false) := by
    simp only [Asker.step, asker_answer h, Asker.receiveResponse, hv, ne_eq, not_true_eq_false, if_false]
    rfl
  refine ⟨makeResponse (.int id.toNat) (.str c.version) none, makeResponse (.int id.toNat) .null (some illegalMethod), ?_, ?_, ?_, ?_⟩
  · have hg : getVersionValid (makeRequest (.number id) .getVersion []) = true := by
      unfold getVersionValid
      have : requestValid (makeRequest (.number id) .getVersion []) = true := by
        unfold requestValid
        have e1 : methodOf (makeRequest (.number id) .getVersion []) = .getVersion := by
          show Method.fromText _ = _
          decide
        rw [e1]
        rfl
      rw [this]
      have e1 : methodOf (makeRequest (.number id) .getVersion []) = .getVersion := by
        show Method.fromText _ = _
        decide
      rw [e1]
      rfl
    unfold Client.receiveRequest
    rw [hg]
    rfl
  · rw [hs]
  · rw [hs]
  · rw [hs]
    have hf : (({ a.remote with table := a.remote.table.filter fun x => x.1 ≠ id.toNat } : Remote)).find id.toNat = none := by
      rw [find_filter, if_pos rfl]
    have hr : ({ a.remote with table := a.remote.table.filter fun x => x.1 ≠ id.toNat } : Remote).receive
        (makeResponse (.int id.toNat) .null (some illegalMethod)) =
        ({ a.remote with table := a.remote.table.filter fun x => x.1 ≠ id.toNat }, .threw) := by
      have h1 : notificationValid (makeResponse (.int id.toNat) .null (some illegalMethod)) = false := rfl
      have h2 : responseValid (makeResponse (.int id.toNat) .null (some illegalMethod)) = true := rfl
      have h3 : idOf (makeResponse (.int id.toNat) .null (some illegalMethod)) = .int id.toNat := rfl
      unfold Remote.receive
      rw [h1, h2, h3]
      simp only [Bool.false_eq_true, if_false, if_true, Int.toNat_natCast, hf]
    simp only [Asker.step, hr]
    exact ⟨trivial, trivial⟩

/-! Cases -/

/-- A notification as it should be. -/
def note (name : String) (p : List Json) : Json :=
  .obj [("id".toList, .null), ("method".toList, .str name.toList), ("params".toList, .arr p)]

/-- Two difficulties, something unknown between them, and a message. -/
def someEvents : List ClientEvent :=
  [.receive (note "mining.set_difficulty" [.int 4]), .receive (note "mining.unknown" []), .sendSubmit [],
   .receive (note "mining.set_difficulty" [.int 7]), .receive (note "mining.set_extranonce" [.str "0000000a".toList, .int 4]),
   .receive (note "client.show_message" [.str "hello".toList]), .receive (note "mining.set_difficulty" [.int 0])]

example (V : Validity) : ∃ s rs, (listening [] none).run V someEvents = some (s, rs) ∧ s.told.difficulty = some (.int 7) ∧
    s.told.extranonce = some ⟨10, 4⟩ ∧ rs.map (·.threw) = [false, true, false, false, false, false, true] := by
  refine ⟨_, _, rfl, rfl, ?_, ?_⟩ <;> decide +kernel

example : Last SetsDifficulty someEvents (.int 7) :=
  ⟨someEvents.take 3, note "mining.set_difficulty" [.int 7], someEvents.drop 4, rfl, ⟨7, by decide, rfl, rfl, rfl, rfl⟩, by
    intro k b hk hb
    obtain ⟨n, hn, -, -, hm, hp⟩ := hb
    simp only [someEvents, List.drop_succ_cons, List.drop_zero, List.mem_cons, ClientEvent.receive.injEq, List.not_mem_nil, or_false] at hk
    rcases hk with rfl | rfl | rfl
    · exact absurd (Json.str.inj (show Json.str "mining.set_extranonce".toList = Json.str "mining.set_difficulty".toList from Option.some.inj hm)) (by decide)
    · exact absurd (Json.str.inj (show Json.str "client.show_message".toList = Json.str "mining.set_difficulty".toList from Option.some.inj hm)) (by decide)
    · have := Option.some.inj (show some (Json.arr [.int 0]) = some (.arr [.int n]) from hp)
      simp at this
      omega⟩

/-- A job that can be worked on. -/
def someJob : List Json :=
  [.str "1".toList, .str (List.replicate 64 '1'), .str "00".toList, .str "ff".toList, .arr [], .str "00000001".toList, .str "1d00ffff".toList,
   .str "00000005".toList, .bool true]

example : ∃ s rs n, (listening [] none).run ⟨fun _ => true, true⟩ [.receive (note "mining.notify" someJob)] = some (s, rs) ∧
    s.told.job = some n ∧ n.jobId = "1".toList ∧ n.target = 0x1d00ffff ∧ n.version = 1 := by
  refine ⟨_, _, _, rfl, rfl, ?_⟩
  decide +kernel

example (V : Validity) : (listening [] none).run V [.receive (note "mining.set_version_mask" [.str "nonsense".toList])] = none :=
  (C140_false_undefined _ _ _ _).2 ⟨_, _, List.mem_singleton.2 rfl, ⟨rfl, rfl, rfl⟩, rfl, by decide +kernel⟩

example : ∃ s j, State.send ⟨fun _ _ => false, fun _ _ => false⟩ (fun s _ => s) { subscriptions := 1, nextDifficulty := .null }
    (.difficulty (.int 4)) = .done s (some j) := ⟨_, _, rfl⟩

/-- A server that asks twice and is told nonsense and then a version. -/
def someAsking : List AskerEvent :=
  [.ask, .finish 0, .ask, .finish 0, .receive (makeResponse (.int 0) (.int 7) none), .receive (makeResponse (.int 1) (.str "miner 1.0".toList) none)]

example : (Asker.run {} someAsking).1.version = some "miner 1.0".toList ∧
    (Asker.run {} someAsking).2.map (·.2) = [false, false, false, false, true, false] := by decide +kernel

end Verif.Stratum
