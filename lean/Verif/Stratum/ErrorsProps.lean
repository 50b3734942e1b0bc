import Verif.Stratum.Errors
import Verif.Stratum.MessageProps

/-
C194: the errors that a mining server reports.
-/

namespace Verif.Stratum

open Verif Verif.Net

theorem errorMessage_named (c : BitVec 32) (h : c ∈ errorCodes) : errorMessage c ≠ [] := by
  have a : (errorCodes.all fun c => decide (errorMessage c ≠ [])) = true := by decide +kernel
  exact of_decide_eq_true (List.all_eq_true.1 a c h)

theorem errorMessage_named_apart (c : BitVec 32) (h : c ∈ errorCodes) (c' : BitVec 32) (h' : c' ∈ errorCodes)
    (e : errorMessage c = errorMessage c') : c = c' := by
  have a : (errorCodes.all fun c => errorCodes.all fun c' => decide (errorMessage c = errorMessage c' → c = c')) = true := by
    decide +kernel
  exact of_decide_eq_true (List.all_eq_true.1 (List.all_eq_true.1 a c h) c' h') e

theorem errorMessage_nameless (c : BitVec 32) (h : c ∉ errorCodes) : errorMessage c = [] := by
  simp only [errorCodes, List.mem_cons, List.not_mem_nil, or_false, not_or] at h
  obtain ⟨h0, h1, h2, h3, h4, h5, h6, h7, h8, h9, h10, h11, h12, h13, h14, h15, h16, h17, h18⟩ := h
  unfold errorMessage
  rw [if_neg h0, if_neg h1, if_neg h2, if_neg h3, if_neg h4, if_neg h5, if_neg h6, if_neg h7, if_neg h8, if_neg h9, if_neg h10,
    if_neg h11, if_neg h12, if_neg h13, if_neg h14, if_neg h15, if_neg h16, if_neg h17, if_neg h18]

/-- **C194**: a code has a message exactly if it has a name. -/
theorem C194_said_iff (c : BitVec 32) : errorMessage c ≠ [] ↔ c ∈ errorCodes :=
  ⟨fun h => Classical.byContradiction fun hc => h (errorMessage_nameless c hc), errorMessage_named c⟩

/-- **C194**: a code that has a name is told by its message from all the others, those without a name too. -/
theorem C194_apart (c c' : BitVec 32) (h : c ∈ errorCodes) (e : errorMessage c = errorMessage c') : c = c' := by
  have h' : c' ∈ errorCodes := by
    rw [← C194_said_iff, ← e, C194_said_iff]
    exact h
  exact errorMessage_named_apart c h c' h' e

/-- **C194**: if two refusals made of codes are read as the same error then the codes were the same, and what is read says what the code
means. -/
theorem C194_refused (id id' : MessageId) (c c' : BitVec 32) :
    errorOf (makeRefusal id.json (.of c)) = some ⟨c, errorMessage c⟩ ∧
      (errorOf (makeRefusal id.json (.of c)) = errorOf (makeRefusal id'.json (.of c')) ↔ c = c') := by
  have h : ∀ (id : MessageId) c, errorOf (makeRefusal id.json (.of c)) = some ⟨c, errorMessage c⟩ :=
    fun id c => (C64_response id _ _).2.2.2
  refine ⟨h id c, ?_⟩
  rw [h, h]
  constructor
  · intro e
    injection e with e
    injection e
  · rintro rfl
    rfl

/-- **C194**: which error is read from a list of a number and text: the code is the number, and the text is kept, if the number is of
32 bits.  Missing: `C194_false_code`. -/
theorem C194_read_partial (m : BitVec 32) (n : Nat) (s : List Char) (h : n < 2 ^ 32) :
    (Err.ofJson m (.arr [.int n, .str s])).code.toNat = n ∧ (Err.ofJson m (.arr [.int n, .str s])).message = s := by
  simp only [Err.ofJson, if_pos (Int.natCast_nonneg n), and_true]
  show (BitVec.ofInt 32 (n : Int)).toNat = n
  rw [BitVec.ofInt_natCast, BitVec.toNat_ofNat, Nat.mod_eq_of_lt h]

/-- **C194, false as stated**: to each code there is another number, taken for a code in a response, that is read as that code. -/
theorem C194_false_code (id : MessageId) (result : Json) (c : BitVec 32) (s : List Char) : ∃ n : Nat, n ≠ c.toNat ∧
    errorOf (.obj [("id".toList, id.json), ("result".toList, result), ("error".toList, .arr [.int n, .str s])]) = some ⟨c, s⟩ := by
  refine ⟨2 ^ 32 + c.toNat, by omega, ?_⟩
  generalize hj : Json.obj [("id".toList, id.json), ("result".toList, result),
    ("error".toList, .arr [.int ((2 ^ 32 + c.toNat : Nat) : Int), .str s])] = j
  have h1 : j.get "id".toList = some id.json := by rw [← hj]; rfl
  have h2 : j.get "result".toList = some result := by rw [← hj]; rfl
  have h3 : j.get "error".toList = some (.arr [.int ((2 ^ 32 + c.toNat : Nat) : Int), .str s]) := by rw [← hj]; rfl
  have hv : responseValid j = true := by
    rw [C64_response_iff]
    refine ⟨?_, ⟨_, h2⟩, .inr ⟨_, _, h3⟩⟩
    cases id with
    | number n => exact .inl ⟨_, h1⟩
    | text s => exact .inr ⟨_, h1⟩
  unfold errorOf
  rw [hv, h3]
  simp only [if_true, Err.ofJson, if_pos (Int.natCast_nonneg _)]
  congr 2
  apply BitVec.eq_of_toNat_eq
  rw [BitVec.ofInt_natCast, BitVec.toNat_ofNat, Nat.add_mod_left, Nat.mod_eq_of_lt c.isLt]

/-- **C194**: what was in memory has no part in the error that is read from a response that is taken for one. -/
theorem C194_memory (j e : Json) (m m' : BitVec 32) (h : responseValid j = true) (he : j.get "error".toList = some e) (hn : e ≠ .null) :
    Err.ofJson m e = Err.ofJson m' e := by
  rcases ((C64_response_iff j).1 h).2.2 with h' | ⟨n, s, h'⟩
  · rw [he] at h'
    injection h' with h'
    exact absurd h' hn
  · rw [he] at h'
    injection h' with h'
    subst h'
    simp only [Err.ofJson, if_pos (Int.natCast_nonneg _)]

/-- **C194, false as stated**: whatever is no error is read by the constructor as an error of which the code is what was in memory. -/
theorem C194_false_memory (j : Json) (h : ∀ (n : Nat) s, j ≠ .arr [.int n, .str s]) (m : BitVec 32) : (Err.ofJson m j).code = m := by
  unfold Err.ofJson
  split
  · rename_i n s
    split
    · rename_i hn
      exact absurd (by rw [Int.toNat_of_nonneg hn]) (h n.toNat s)
    · rfl
  · rfl

/-- **C194, false as stated**: two codes that have no name are not told apart by what is said of them. -/
theorem C194_false_nameless : ∃ c c' : BitVec 32, c ≠ c' ∧ errorMessage c = errorMessage c' :=
  ⟨20, 38, by decide, by decide +kernel⟩

/-! ### Cases -/

example : errorMessage 23 = "low difficulty".toList := by decide +kernel
example : (Err.ofJson 24 .null).code = 24 := C194_false_memory .null (fun _ _ => by simp) 24
example (m m' : BitVec 32) : Err.ofJson m (.arr [.int (22 : Nat), .str []]) = Err.ofJson m' (.arr [.int (22 : Nat), .str []]) :=
  C194_memory (makeResponse (MessageId.number 1).json .null (some ⟨22, []⟩)) _ m m' (C64_response (.number 1) _ _).1 rfl (by simp)
example : (23 : BitVec 32) ∈ errorCodes := by decide
example : errorOf (makeRefusal (MessageId.number 7).json (.of 23)) = some ⟨23, errorMessage 23⟩ := (C194_refused (.number 7) (.number 7) 23 23).1
example : (Err.ofJson 5 (.arr [.int (4294967295 : Nat), .str "x".toList])).message = "x".toList := (C194_read_partial 5 4294967295 _ (by decide)).2

end Verif.Stratum
