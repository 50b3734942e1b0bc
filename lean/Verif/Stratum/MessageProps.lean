import Verif.Stratum.Message

/-
Property C64: names of methods, and messages read back.
-/

namespace Verif.Stratum

open Verif.Net

namespace Spec

/-- The ten methods that have names, with the names they go by. -/
def names : List (Method × List Char) := [
  (.notify, "mining.notify".toList),
  (.submit, "mining.submit".toList),
  (.configure, "mining.configure".toList),
  (.authorize, "mining.authorize".toList),
  (.subscribe, "mining.subscribe".toList),
  (.setDifficulty, "mining.set_difficulty".toList),
  (.setExtranonce, "mining.set_extranonce".toList),
  (.setVersionMask, "mining.set_version_mask".toList),
  (.getVersion, "client.get_version".toList),
  (.showMessage, "client.show_message".toList)]

def named (m : Method) : Prop := ∃ s, (m, s) ∈ names

end Spec

/-- **C64** Every name in the table is read as its method and written from it. -/
theorem C64_names : ∀ m s, (m, s) ∈ Spec.names → m.toText = s ∧ Method.fromText s = m := by
  intro m s h
  simp only [Spec.names, List.mem_cons, Prod.mk.injEq, List.not_mem_nil, or_false] at h
  rcases h with h | h | h | h | h | h | h | h | h | h <;> obtain ⟨rfl, rfl⟩ := h <;> decide

/-- **C64** Every other text is read as no method at all. -/
theorem C64_unknown (s : List Char) (h : ∀ m, (m, s) ∉ Spec.names) : Method.fromText s = .unset := by
  have h' : ∀ e ∈ Spec.names, s ≠ e.2 := fun e he hs => h e.1 (by rw [hs]; exact he)
  simp only [Spec.names, List.mem_cons, List.not_mem_nil, or_false, forall_eq_or_imp, forall_eq] at h'
  obtain ⟨h0, h1, h2, h3, h4, h5, h6, h7, h8, h9⟩ := h'
  simp only [Method.fromText, if_neg h0, if_neg h1, if_neg h2, if_neg h3, if_neg h4, if_neg h5, if_neg h6, if_neg h7, if_neg h8,
    if_neg h9]

example : Method.fromText "mining.ping".toList = .unset := C64_unknown _ fun m => by cases m <;> decide

theorem named_fromText {m : Method} (h : Spec.named m) : Method.fromText m.toText = m := by
  obtain ⟨s, hs⟩ := h
  have := C64_names m s hs
  rw [this.1, this.2]

theorem named_ne_unset {m : Method} (h : Spec.named m) : m ≠ .unset := by
  obtain ⟨s, hs⟩ := h
  rintro rfl
  simp [Spec.names] at hs

theorem idValid_json (id : MessageId) : idValid id.json = true := by
  cases id <;> simp [MessageId.json, idValid, isUnsigned, isString]

/-- **C64** A request with a method that has a name is valid, and its id, method and parameters are read back.  Missing: the
same for notifications, and for the methods without names. -/
theorem C64_request_partial (id : MessageId) (m : Method) (hm : Spec.named m) (p : List Json) :
    requestValid (makeRequest id m p) = true ∧ idOf (makeRequest id m p) = id.json ∧ methodOf (makeRequest id m p) = m ∧
      paramsOf (makeRequest id m p) = p := by
  have h1 : (makeRequest id m p).get "id".toList = some id.json := rfl
  have h2 : (makeRequest id m p).get "method".toList = some (.str m.toText) := rfl
  have h3 : (makeRequest id m p).get "params".toList = some (.arr p) := rfl
  have h4 : methodOf (makeRequest id m p) = m := by
    unfold methodOf
    rw [h2]
    exact named_fromText hm
  refine ⟨?_, ?_, h4, ?_⟩
  · unfold requestValid
    rw [h4, h1, h3]
    simp [named_ne_unset hm, isArray, idValid_json]
  · unfold idOf
    rw [h1]
    simp [idValid_json]
  · unfold paramsOf
    rw [h3]

example : methodOf (makeRequest (.number 7) .submit [.str "a".toList]) = .submit :=
  (C64_request_partial (.number 7) .submit ⟨_, by simp [Spec.names]; rfl⟩ [.str "a".toList]).2.2.1

theorem fromText_iff (s : List Char) : Method.fromText s ≠ .unset ↔ ∃ m, (m, s) ∈ Spec.names := by
  constructor
  · intro h
    exact Classical.byContradiction fun hc => h (C64_unknown s fun m hm => hc ⟨m, hm⟩)
  · rintro ⟨m, hm⟩
    rw [(C64_names m s hm).2]
    exact named_ne_unset ⟨s, hm⟩

theorem methodOf_iff (j : Json) : methodOf j ≠ .unset ↔ ∃ m s, (m, s) ∈ Spec.names ∧ j.get "method".toList = some (.str s) := by
  unfold methodOf
  split
  · rename_i s hs
    rw [fromText_iff]
    constructor
    · rintro ⟨m, hm⟩
      exact ⟨m, s, hm, hs⟩
    · rintro ⟨m, s', hm, h⟩
      rw [hs, Option.some.injEq, Json.str.injEq] at h
      exact ⟨m, h ▸ hm⟩
  · rename_i hn
    simp only [ne_eq, not_true_eq_false, false_iff, not_exists, not_and]
    exact fun _ s _ h => hn s h

/-- **C64** Exactly which values are taken for requests and for notifications: those with a method that has a name, a list of
parameters, and for a request an id that is a number that is not negative or text, for a notification one that is null.  So
nothing is taken for both. -/
theorem C64_valid_iff (j : Json) :
    (requestValid j = true ↔ (∃ m s, (m, s) ∈ Spec.names ∧ j.get "method".toList = some (.str s)) ∧
      (∃ l, j.get "params".toList = some (.arr l)) ∧
      ((∃ n : Nat, j.get "id".toList = some (.int n)) ∨ ∃ s, j.get "id".toList = some (.str s))) ∧
    (notificationValid j = true ↔ (∃ m s, (m, s) ∈ Spec.names ∧ j.get "method".toList = some (.str s)) ∧
      (∃ l, j.get "params".toList = some (.arr l)) ∧ j.get "id".toList = some .null) := by
  have hp : ((j.get "params".toList).map isArray).getD false = true ↔ ∃ l, j.get "params".toList = some (.arr l) := by
    cases j.get "params".toList with
    | none => simp
    | some k => cases k <;> simp [isArray]
  have hi : ((j.get "id".toList).map idValid).getD false = true ↔
      (∃ n : Nat, j.get "id".toList = some (.int n)) ∨ ∃ s, j.get "id".toList = some (.str s) := by
    cases j.get "id".toList with
    | none => simp
    | some k =>
      cases k with
      | int n =>
        simp only [Option.map_some, Option.getD_some, idValid, isUnsigned, isString, Bool.or_false, decide_eq_true_eq,
          Option.some.injEq, Json.int.injEq, reduceCtorEq, exists_false, or_false]
        exact ⟨fun h => ⟨n.toNat, by omega⟩, fun ⟨m, h⟩ => by omega⟩
      | _ => simp [idValid, isUnsigned, isString]
  have hn : ((j.get "id".toList).map isNull).getD false = true ↔ j.get "id".toList = some .null := by
    cases j.get "id".toList with
    | none => simp
    | some k => cases k <;> simp [isNull]
  constructor
  · unfold requestValid
    rw [Bool.and_eq_true, Bool.and_eq_true, hp, hi, decide_eq_true_eq, methodOf_iff, and_assoc]
  · unfold notificationValid
    rw [Bool.and_eq_true, Bool.and_eq_true, hp, hn, decide_eq_true_eq, methodOf_iff, and_assoc]

-- a notification as servers send it
example : notificationValid (.obj [("id".toList, .null), ("method".toList, .str "mining.notify".toList), ("params".toList, .arr [])]) = true :=
  ((C64_valid_iff _).2).2 ⟨⟨.notify, _, by simp [Spec.names], rfl⟩, ⟨[], rfl⟩, rfl⟩

/-- **C64** A response is valid, and its id, result and error are read back. -/
theorem C64_response (id : MessageId) (result : Json) (e : Option Err) :
    responseValid (makeResponse id.json result e) = true ∧ idOf (makeResponse id.json result e) = id.json ∧
      resultOf (makeResponse id.json result e) = result ∧ errorOf (makeResponse id.json result e) = e := by
  have h1 : (makeResponse id.json result e).get "id".toList = some id.json := rfl
  have h2 : (makeResponse id.json result e).get "result".toList = some result := rfl
  cases e with
  | none =>
    have h3 : (makeResponse id.json result none).get "error".toList = some .null := rfl
    have hv : responseValid (makeResponse id.json result none) = true := by
      unfold responseValid
      rw [h1, h2, h3]
      simp [idValid_json, isNull]
    refine ⟨hv, ?_, ?_, ?_⟩
    · unfold idOf
      rw [h1]
      simp [idValid_json]
    · unfold resultOf
      rw [h2]
      rfl
    · unfold errorOf
      rw [hv, h3]
      rfl
  | some e =>
    have h3 : (makeResponse id.json result (some e)).get "error".toList = some e.json := rfl
    have hv : responseValid (makeResponse id.json result (some e)) = true := by
      unfold responseValid
      rw [h1, h2, h3]
      simp [idValid_json, Err.json, errorValid, isUnsigned, isString]
    refine ⟨hv, ?_, ?_, ?_⟩
    · unfold idOf
      rw [h1]
      simp [idValid_json]
    · unfold resultOf
      rw [h2]
      rfl
    · unfold errorOf
      rw [hv, h3]
      simp only [if_true, Err.json, Err.ofJson, Int.natCast_nonneg]
      cases e
      simp

example : errorOf (makeResponse (MessageId.text "x".toList).json .null (some ⟨24, "unauthorized".toList⟩)) =
    some ⟨24, "unauthorized".toList⟩ := (C64_response (.text "x".toList) _ _).2.2.2

/-- **C64** Exactly which values are taken for responses: those with an id that is a number that is not negative or text, a result, and an error that is null or a list of a number
that is not negative and text. -/
theorem C64_response_iff (j : Json) :
    responseValid j = true ↔ ((∃ n : Nat, j.get "id".toList = some (.int n)) ∨ ∃ s, j.get "id".toList = some (.str s)) ∧
      (∃ r, j.get "result".toList = some r) ∧
      (j.get "error".toList = some .null ∨ ∃ (n : Nat) (s : List Char), j.get "error".toList = some (.arr [.int n, .str s])) := by
  have hu : ∀ k : Json, isUnsigned k = true ↔ ∃ n : Nat, k = .int n := by
    intro k
    cases k with
    | int n =>
      simp only [isUnsigned, decide_eq_true_eq, Json.int.injEq]
      exact ⟨fun h => ⟨n.toNat, by omega⟩, fun ⟨m, h⟩ => by omega⟩
    | _ => simp [isUnsigned]
  have hs : ∀ k : Json, isString k = true ↔ ∃ s, k = .str s := by
    intro k; cases k <;> simp [isString]
  have hn : ∀ k : Json, isNull k = true ↔ k = .null := by
    intro k; cases k <;> simp [isNull]
  have he : ∀ k : Json, errorValid k = true ↔ ∃ (n : Nat) (s : List Char), k = .arr [.int n, .str s] := by
    intro k
    unfold errorValid
    split
    · rename_i a b
      rw [Bool.and_eq_true, hu, hs]
      constructor
      · rintro ⟨⟨n, rfl⟩, s, rfl⟩; exact ⟨n, s, rfl⟩
      · rintro ⟨n, s, h⟩; cases h; exact ⟨⟨n, rfl⟩, s, rfl⟩
    · rename_i hx
      simp only [Bool.false_eq_true, false_iff, not_exists]
      exact fun n s h => hx _ _ h
  unfold responseValid
  cases j.get "id".toList with
  | none => simp
  | some a =>
    cases j.get "result".toList with
    | none => simp
    | some r =>
      cases j.get "error".toList with
      | none => simp
      | some e => simp only [idValid, Bool.and_eq_true, Bool.or_eq_true, hu, hs, hn, he, Option.some.injEq, exists_eq', true_and]

/-- **C64** A response that is true or false, or a refusal, is read as what it was made of. -/
theorem C64_boolean (id : MessageId) :
    (∀ b, boolResponseValid (makeBool id.json b) = true ∧ boolResult (makeBool id.json b) = b) ∧
      ∀ e, boolResponseValid (makeRefusal id.json e) = true ∧ boolResult (makeRefusal id.json e) = false ∧
        errorOf (makeRefusal id.json e) = some e := by
  constructor
  · intro b
    obtain ⟨h1, -, h3, h4⟩ := C64_response id (.bool b) none
    have hv : boolResponseValid (makeBool id.json b) = true := by
      unfold boolResponseValid makeBool
      rw [h1, h3]
      rfl
    refine ⟨hv, ?_⟩
    unfold boolResult
    rw [hv]
    unfold makeBool
    rw [h3, h4]
    simp
  · intro e
    obtain ⟨h1, -, h3, h4⟩ := C64_response id (.bool false) (some e)
    have hv : boolResponseValid (makeRefusal id.json e) = true := by
      unfold boolResponseValid makeRefusal
      rw [h1, h3]
      rfl
    refine ⟨hv, ?_, h4⟩
    unfold boolResult
    rw [hv]
    unfold makeRefusal
    rw [h4]
    simp

/-- **C64, false as stated** No notification made by the library is a valid message, has a method or has its parameters: whatever
it was made of is lost. -/
theorem C64_false_notification (m : Method) (p : List Json) :
    notificationValid (makeNotification m p) = false ∧ requestValid (makeNotification m p) = false ∧
      responseValid (makeNotification m p) = false ∧ methodOf (makeNotification m p) = .unset ∧
      paramsOf (makeNotification m p) = [] := ⟨rfl, rfl, rfl, rfl, rfl⟩

/-- **C64, false as stated** Requests of the methods that have no name are not valid, and are read as of no method. -/
theorem C64_false_nameless (id : MessageId) (m : Method) (p : List Json) (h : ¬ Spec.named m) :
    methodOf (makeRequest id m p) = .unset ∧ requestValid (makeRequest id m p) = false := by
  have hm : Method.fromText m.toText = .unset := by
    cases m <;> first | rfl | (exfalso; apply h; exact ⟨_, by simp [Spec.names]; rfl⟩)
  have h4 : methodOf (makeRequest id m p) = .unset := by
    have h2 : (makeRequest id m p).get "method".toList = some (.str m.toText) := rfl
    unfold methodOf
    rw [h2]
    exact hm
  refine ⟨h4, ?_⟩
  unfold requestValid
  rw [h4]
  rfl

example : ¬ Spec.named .suggestDifficulty := by
  rintro ⟨s, hs⟩
  simp [Spec.names] at hs

end Verif.Stratum
