import Verif.Stratum.Remote
import Verif.Stratum.MessageProps

/-
Property C109: responses find the requests that they answer.
-/

namespace Verif.Stratum

open Verif.Net

namespace Spec

/-- What can happen at one end of a connection. -/
inductive Event
  | start (m : Method) (p : List Json)
  | finish (k : Nat)
  | receive (j : Json)

/-- What came of it. -/
inductive Result
  | sent (j : Json)
  | finished (id : Option (BitVec 32))
  | handled (h : Handled)

/-- A request sent in one go, or a message received. -/
inductive Act
  | send (m : Method) (p : List Json)
  | receive (j : Json)

/-- The events of acts, where no request is sent while another waits. -/
def inOneGo : List Act → List Event
  | [] => []
  | .send m p :: l => .start m p :: .finish 0 :: inOneGo l
  | .receive j :: l => .receive j :: inOneGo l

/-- The methods of the requests that were sent, in order. -/
def sentMethods : List Act → List Method
  | [] => []
  | .send m _ :: l => m :: sentMethods l
  | .receive _ :: l => sentMethods l

/-- A response with the id given. -/
def Answers (n : Nat) (j : Json) : Prop := responseValid j = true ∧ notificationValid j = false ∧ idOf j = .int n

/-- The ids of the responses that were handed over. -/
def Answered (n : Nat) (r : List Result) : Prop := ∃ m j, .handled (.response m j) ∈ r ∧ Answers n j

end Spec

open Spec

def step (r : Remote) : Event → Remote × Result
  | .start m p => ((r.start m p).1, .sent (r.start m p).2)
  | .finish k => ((r.finish k).1, .finished (r.finish k).2)
  | .receive j => ((r.receive j).1, .handled (r.receive j).2)

def run (r : Remote) : List Event → Remote × List Result
  | [] => (r, [])
  | e :: l => ((run (step r e).1 l).1, (step r e).2 :: (run (step r e).1 l).2)

theorem run_append (r : Remote) (l l' : List Event) :
    run r (l ++ l') = ((run (run r l).1 l').1, (run r l).2 ++ (run (run r l).1 l').2) := by
  induction l generalizing r with
  | nil => rfl
  | cons e l ih => simp only [List.cons_append, run, ih]

theorem find_insert (r : Remote) (id n : Nat) (m : Method) :
    ({ r with table := insertMethod r.table id m } : Remote).find n = if n = id then some m else r.find n := by
  unfold Remote.find insertMethod
  by_cases h : n = id
  · subst h
    simp
  · rw [if_neg h, List.find?_cons_of_neg (by simpa using Ne.symm h)]
    congr 1
    induction r.table with
    | nil => rfl
    | cons e t ih =>
      by_cases he : e.1 = id
      · rw [List.filter_cons_of_neg (by simpa using he), ih,
          List.find?_cons_of_neg (by simp only [he, decide_eq_true_eq]; exact Ne.symm h)]
      · rw [List.filter_cons_of_pos (by simpa using he)]
        by_cases hn : e.1 = n
        · rw [List.find?_cons_of_pos (by simpa using hn), List.find?_cons_of_pos (by simpa using hn)]
        · rw [List.find?_cons_of_neg (by simpa using hn), List.find?_cons_of_neg (by simpa using hn), ih]

theorem find_filter (r : Remote) (id n : Nat) :
    ({ r with table := r.table.filter fun e => decide (e.1 ≠ id) } : Remote).find n = if n = id then none else r.find n := by
  unfold Remote.find
  simp only
  by_cases h : n = id
  · subst h
    rw [if_pos rfl]
    have : (r.table.filter fun e => decide (e.1 ≠ n)).find? (fun e => decide (e.1 = n)) = none := by
      rw [List.find?_eq_none]
      intro e he
      simpa using (List.mem_filter.1 he).2
    rw [this]
    rfl
  · rw [if_neg h]
    congr 1
    induction r.table with
    | nil => rfl
    | cons e t ih =>
      by_cases he : e.1 = id
      · rw [List.filter_cons_of_neg (by simpa using he), ih,
          List.find?_cons_of_neg (by simp only [he, decide_eq_true_eq]; exact Ne.symm h)]
      · rw [List.filter_cons_of_pos (by simpa using he)]
        by_cases hn : e.1 = n
        · rw [List.find?_cons_of_pos (by simpa using hn), List.find?_cons_of_pos (by simpa using hn)]
        · rw [List.find?_cons_of_neg (by simpa using hn), List.find?_cons_of_neg (by simpa using hn), ih]

theorem receive_answers {r : Remote} {j : Json} {n : Nat} (h : Answers n j) :
    r.receive j = match r.find n with
      | some m => ({ r with table := r.table.filter fun e => decide (e.1 ≠ n) }, .response m j)
      | none => (r, .threw) := by
  unfold Remote.receive
  rw [h.2.1, h.1, h.2.2]
  simp only [Bool.false_eq_true, if_false, if_true, Int.toNat_natCast]
  cases r.find n <;> rfl

theorem receive_other {r : Remote} {j : Json} (h : ∀ n, ¬ Answers n j) :
    (r.receive j).1 = r ∧ ∀ m j', (r.receive j).2 ≠ .response m j' := by
  unfold Remote.receive
  split
  · simp
  · next hn =>
    split
    · next hr =>
      split
      · next n hi =>
        exfalso
        have hv : idValid (.int n) = true := by
          unfold idOf at hi
          split at hi
          · next q hq =>
            split at hi
            · next hv => rw [← hi]; exact hv
            · simp at hi
          · simp at hi
        have h0 : 0 ≤ n := by simpa [idValid, isUnsigned, isString] using hv
        exact h n.toNat ⟨hr, by simpa using hn, by rw [hi, Int.toNat_of_nonneg h0]⟩
      · simp
    · split <;> simp

/-- The table holds the requests that have been sent and not been answered. -/
structure Inv (r : Remote) (sent : List Method) (out : List Result) : Prop where
  waiting : r.waiting = []
  requests : r.requests.toNat = sent.length % 2 ^ 32
  table : ∀ n m, r.find n = some m ↔ sent[n]? = some m ∧ ¬ Answered n out
  answered : ∀ n, Answered n out → n < sent.length

theorem Inv.send {r : Remote} {sent : List Method} {out : List Result} (h : Inv r sent out) (hl : sent.length < 2 ^ 32)
    (m : Method) (p : List Json) :
    run r [.start m p, .finish 0] = ({ r with requests := r.requests + 1, table := insertMethod r.table sent.length m },
      [.sent (makeRequest (.number r.requests) m p), .finished (some r.requests)]) ∧
    Inv (run r [.start m p, .finish 0]).1 (sent ++ [m]) (out ++ (run r [.start m p, .finish 0]).2) := by
  have hr : r.requests.toNat = sent.length := by rw [h.requests, Nat.mod_eq_of_lt hl]
  have e : run r [.start m p, .finish 0] = ({ r with requests := r.requests + 1, table := insertMethod r.table sent.length m },
      [.sent (makeRequest (.number r.requests) m p), .finished (some r.requests)]) := by
    simp only [run, step, Remote.start, Remote.finish, h.waiting, List.nil_append, List.getElem?_cons_zero,
      List.eraseIdx_cons_zero, hr]
  refine ⟨e, ?_⟩
  rw [e]
  have ha : ∀ n, Answered n (out ++ [.sent (makeRequest (.number r.requests) m p), .finished (some r.requests)]) ↔ Answered n out := by
    intro n
    unfold Answered
    simp
  refine ⟨h.waiting, ?_, ?_, ?_⟩
  · simp only [BitVec.toNat_add, hr, List.length_append, List.length_cons, List.length_nil]
    rfl
  · intro n m'
    have hf := find_insert { r with requests := r.requests + 1 } sent.length n m
    simp only at hf
    have hfr : ({ r with requests := r.requests + 1 } : Remote).find n = r.find n := rfl
    rw [hfr] at hf
    rw [hf, ha]
    by_cases hn : n = sent.length
    · rw [if_pos hn]
      have hna : ¬ Answered n out := fun hA => by
        have := h.answered n hA
        omega
      subst hn
      simp [hna]
    · rw [if_neg hn, h.table]
      rcases Nat.lt_or_gt_of_ne hn with hlt | hgt
      · rw [List.getElem?_append_left hlt]
      · rw [List.getElem?_eq_none (by omega), List.getElem?_eq_none (by simp; omega)]
  · intro n hA
    have := h.answered n ((ha n).1 hA)
    simp only [List.length_append]
    omega

theorem answers_unique {n n' : Nat} {j : Json} (h : Answers n j) (h' : Answers n' j) : n = n' := by
  have := h.2.2.symm.trans h'.2.2
  simp only [Json.int.injEq] at this
  omega

theorem Inv.receive {r : Remote} {sent : List Method} {out : List Result} (h : Inv r sent out) (j : Json) :
    Inv (run r [.receive j]).1 sent (out ++ (run r [.receive j]).2) := by
  simp only [run, step]
  by_cases hex : ∃ n, Answers n j
  · obtain ⟨n, hn⟩ := hex
    rw [receive_answers hn]
    cases hf : r.find n with
    | none =>
      have ha : ∀ k, Answered k (out ++ [.handled .threw]) ↔ Answered k out := by
        intro k
        unfold Answered
        simp
      exact ⟨h.waiting, h.requests, fun k m => by rw [ha]; exact h.table k m, fun k hk => h.answered k ((ha k).1 hk)⟩
    | some m =>
      have ha : ∀ k, Answered k (out ++ [.handled (.response m j)]) ↔ Answered k out ∨ k = n := by
        intro k
        unfold Answered
        constructor
        · rintro ⟨m', j', hm, hj⟩
          rw [List.mem_append] at hm
          rcases hm with hm | hm
          · exact .inl ⟨m', j', hm, hj⟩
          · simp only [List.mem_cons, List.not_mem_nil, or_false, Result.handled.injEq, Handled.response.injEq] at hm
            obtain ⟨rfl, rfl⟩ := hm
            exact .inr (answers_unique hj hn)
        · rintro (⟨m', j', hm, hj⟩ | rfl)
          · exact ⟨m', j', List.mem_append_left _ hm, hj⟩
          · exact ⟨m, j, by simp, hn⟩
      refine ⟨h.waiting, h.requests, fun k m' => ?_, fun k hk => ?_⟩
      · simp only
        rw [find_filter, ha]
        by_cases hk : k = n
        · simp [hk]
        · rw [if_neg hk, h.table]
          simp [hk]
      · rcases (ha k).1 hk with hk | rfl
        · exact h.answered k hk
        · have := ((h.table k m).1 hf).1
          exact (List.getElem?_eq_some_iff.1 this).1
  · obtain ⟨h1, h2⟩ := receive_other (r := r) (j := j) fun n hn => hex ⟨n, hn⟩
    rw [h1]
    have ha : ∀ k, Answered k (out ++ [.handled (r.receive j).2]) ↔ Answered k out := by
      intro k
      unfold Answered
      constructor
      · rintro ⟨m', j', hm, hj⟩
        rw [List.mem_append] at hm
        rcases hm with hm | hm
        · exact ⟨m', j', hm, hj⟩
        · simp only [List.mem_cons, List.not_mem_nil, or_false, Result.handled.injEq] at hm
          exact absurd hm.symm (h2 m' j')
      · rintro ⟨m', j', hm, hj⟩
        exact ⟨m', j', List.mem_append_left _ hm, hj⟩
    exact ⟨h.waiting, h.requests, fun k m => by rw [ha]; exact h.table k m, fun k hk => h.answered k ((ha k).1 hk)⟩

theorem Inv.run {r : Remote} {sent : List Method} {out : List Result} (h : Inv r sent out) (l : List Act)
    (hl : sent.length + (sentMethods l).length ≤ 2 ^ 32) :
    Inv (Verif.Stratum.run r (inOneGo l)).1 (sent ++ sentMethods l) (out ++ (Verif.Stratum.run r (inOneGo l)).2) := by
  induction l generalizing r sent out with
  | nil => simpa [inOneGo, Verif.Stratum.run, sentMethods] using h
  | cons a l ih =>
    cases a with
    | send m p =>
      simp only [sentMethods, List.length_cons] at hl
      have h1 := (h.send (by omega) m p).2
      have h2 := ih h1 (by simp only [List.length_append, List.length_cons, List.length_nil]; omega)
      have e : inOneGo (.send m p :: l) = [.start m p, .finish 0] ++ inOneGo l := rfl
      rw [e, run_append]
      simpa [sentMethods] using h2
    | receive j =>
      simp only [sentMethods] at hl
      have h2 := ih (h.receive j) hl
      have e : inOneGo (.receive j :: l) = [.receive j] ++ inOneGo l := rfl
      rw [e, run_append]
      simpa [sentMethods] using h2

theorem Inv.init : Inv {} [] [] :=
  ⟨rfl, rfl, by simp [Remote.find], by rintro n ⟨m, j, h, -⟩; simp at h⟩

/-- **C109** Where no request is sent while another waits to be sent, and fewer than 2^32 have been: a response is handed over
with a method exactly if the request with its id was sent with that method and no response to it has been handed over before.
Missing: requests that are sent while others wait (`C109_false_same_id`), and responses that come before their requests have been
taken note of (`C109_false_early`). -/
theorem C109_answers_partial (l : List Act) (hl : (sentMethods l).length ≤ 2 ^ 32) (n : Nat) (j : Json) (hj : Answers n j)
    (m : Method) :
    ((run {} (inOneGo l)).1.receive j).2 = .response m j ↔
      (sentMethods l)[n]? = some m ∧ ¬ Answered n (run {} (inOneGo l)).2 := by
  have h := Inv.init.run l (by simpa using hl)
  simp only [List.nil_append] at h
  rw [receive_answers hj, ← h.table]
  cases hf : (run {} (inOneGo l)).1.find n with
  | none => simp
  | some m' => simp

/-- **C109** Under the same conditions the requests that are sent have the ids 0, 1, 2 and so on, each of them another. -/
theorem C109_ids_partial (l : List Act) (hl : (sentMethods l).length < 2 ^ 32) (m : Method) (p : List Json) :
    ((run {} (inOneGo l)).1.start m p).2 = makeRequest (.number (BitVec.ofNat 32 (sentMethods l).length)) m p := by
  have h := Inv.init.run l (by simpa using Nat.le_of_lt hl)
  simp only [List.nil_append] at h
  unfold Remote.start
  have : (run {} (inOneGo l)).1.requests = BitVec.ofNat 32 (sentMethods l).length := by
    apply BitVec.eq_of_toNat_eq
    rw [h.requests, BitVec.toNat_ofNat]
  simp only [this]

/-- A response with the id of a request is one that answers it. -/
theorem answers_response (id : BitVec 32) (result : Json) (e : Option Err) :
    Answers id.toNat (makeResponse (MessageId.number id).json result e) := by
  have h := C64_response (.number id) result e
  exact ⟨h.1, rfl, h.2.1⟩

example : ((run {} (inOneGo [.send .subscribe [], .send .authorize []])).1.receive
    (makeResponse (MessageId.number 1).json (.bool true) none)).2 =
      .response .authorize (makeResponse (MessageId.number 1).json (.bool true) none) :=
  (C109_answers_partial _ (by decide) 1 _ (answers_response 1 _ _) _).2 ⟨rfl, by
    rintro ⟨m, j, h, -⟩
    simp [inOneGo, run, step] at h⟩

/-- **C109, false as stated** Two requests that are sent while both wait have the same id; when both have been taken note of, the
response to the first is handed over as one to the second, and the response to the second is an error. -/
theorem C109_false_same_id (m m' : Method) (p p' : List Json) (result result' : Json) :
    (run {} [.start m p, .start m' p', .finish 0, .finish 0,
      .receive (makeResponse (MessageId.number 0).json result none),
      .receive (makeResponse (MessageId.number 0).json result' none)]).2 =
    [.sent (makeRequest (.number 0) m p), .sent (makeRequest (.number 0) m' p'), .finished (some 0), .finished (some 1),
      .handled (.response m' (makeResponse (MessageId.number 0).json result none)), .handled .threw] := rfl

/-- **C109, false as stated** A response that comes before its request has been taken note of is an error, and the request is then
waited for for ever. -/
theorem C109_false_early (m : Method) (p : List Json) (result : Json) :
    (run {} [.start m p, .receive (makeResponse (MessageId.number 0).json result none), .finish 0]).2 =
      [.sent (makeRequest (.number 0) m p), .handled .threw, .finished (some 0)] ∧
    (run {} [.start m p, .receive (makeResponse (MessageId.number 0).json result none), .finish 0]).1.find 0 = some m :=
  ⟨rfl, rfl⟩

/-- **C109, false as stated** After 2^32 requests that were not answered the first id is used again, and the first request is
forgotten. -/
theorem C109_false_wrap (l : List Act) (hl : (sentMethods l).length = 2 ^ 32) (m : Method) (p : List Json) :
    ((run {} (inOneGo l)).1.start m p).2 = makeRequest (.number 0) m p ∧
      (run {} (inOneGo l ++ [.start m p, .finish 0])).1.find 0 = some m := by
  have h := Inv.init.run l (by simp [hl])
  simp only [List.nil_append] at h
  have h0 : (run {} (inOneGo l)).1.requests = 0 := by
    apply BitVec.eq_of_toNat_eq
    rw [h.requests, hl]
    rfl
  refine ⟨by unfold Remote.start; rw [h0], ?_⟩
  rw [run_append]
  simp only [run, step, Remote.start, Remote.finish, h.waiting, h0, List.nil_append, List.getElem?_cons_zero]
  rfl

/-- **C109** Every message goes to exactly one function or to none, by what it looks like: what does not look like any, and
what looks like a response but is handed over as none, is an error. -/
theorem C109_dispatch (r : Remote) (j : Json) :
    (∀ j', (r.receive j).2 = .notification j' ↔ j' = j ∧ notificationValid j = true) ∧
    (∀ m j', (r.receive j).2 = .response m j' → j' = j ∧ responseValid j = true ∧ notificationValid j = false) ∧
    (∀ j', (r.receive j).2 = .request j' ↔
      j' = j ∧ requestValid j = true ∧ responseValid j = false ∧ notificationValid j = false) ∧
    ((r.receive j).2 = .threw ↔ notificationValid j = false ∧
      if responseValid j then ∀ m, (r.receive j).2 ≠ .response m j else requestValid j = false) := by
  unfold Remote.receive
  cases hn : notificationValid j
  case true => simp; exact fun j' => eq_comm
  cases hr : responseValid j
  case false => cases hq : requestValid j <;> simp <;> exact fun j' => eq_comm
  simp only [Bool.false_eq_true, if_false, if_true]
  split
  · rename_i n hid
    cases hf : r.find n.toNat with
    | none => simp
    | some m => simp +contextual
  · simp

end Verif.Stratum
