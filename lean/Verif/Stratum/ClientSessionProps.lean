import Verif.Stratum.ClientSession
import Verif.Stratum.ConfigureProps

/-
Property C112: where a client stands in its session is what the server has said.
-/

namespace Verif.Stratum

open Verif.Net Verif.Text

namespace Spec

/-- The session as it is made. -/
def fresh (version : List Char) (asked : Option Requests) : Client := { version := version, asked := asked }

/-- The server has said yes, without an error, to a request with the method given. -/
def SaidYes (m : Method) (r : ClientReply) : Prop :=
  ∃ j, r.handled = some (.response m j) ∧ errorOf j = none ∧ resultOf j = .bool true

/-- How many shares were sent. -/
def shares : List ClientEvent → Nat
  | [] => 0
  | .sendSubmit _ :: l => shares l + 1
  | _ :: l => shares l

/-- How many replies are such that the server has said yes to a share. -/
inductive AcceptedShares : List ClientReply → Nat → Prop
  | none : AcceptedShares [] 0
  | yes (r rs n) : SaidYes .submit r → AcceptedShares rs n → AcceptedShares (r :: rs) (n + 1)
  | no (r rs n) : ¬ SaidYes .submit r → AcceptedShares rs n → AcceptedShares (r :: rs) n

end Spec

open Spec

/-! One step -/

theorem client_receive_response {r : Remote} {j : Json} {m : Method} {j' : Json} (h : (r.receive j).2 = .response m j') :
    j' = j ∧ responseValid j = true ∧ ∃ n : Nat, r.find n = some m ∧
      (r.receive j).1 = { r with table := r.table.filter fun e => e.1 ≠ n } := by
  unfold Remote.receive at h ⊢
  by_cases h1 : notificationValid j
  · rw [if_pos h1] at h; cases h
  · rw [if_neg h1] at h ⊢
    by_cases h2 : responseValid j
    · rw [if_pos h2] at h ⊢
      split at h
      · rename_i n hn
        split at h
        · rename_i m' hm
          cases h
          exact ⟨rfl, h2, n.toNat, hm, rfl⟩
        · cases h
      · cases h
    · rw [if_neg h2] at h
      split at h <;> cases h

theorem client_receive_other {r : Remote} {j : Json} (h : ∀ m j', (r.receive j).2 ≠ .response m j') : (r.receive j).1 = r := by
  unfold Remote.receive at h ⊢
  by_cases h1 : notificationValid j
  · rw [if_pos h1]
  · rw [if_neg h1] at h ⊢
    by_cases h2 : responseValid j
    · rw [if_pos h2] at h ⊢
      split at h
      · rename_i n hn
        split at h
        · rename_i m' hm
          exact absurd rfl (h m' j)
        · rfl
      · rfl
    · rw [if_neg h2]
      split <;> rfl

/-- What receiving an answer to a configure request comes to: an exception, or, if nothing was asked for, that the answer is kept. -/
theorem receiveConfigure_eq (c : Client) (r : Results) :
    c.receiveConfigure r = .threw c ∨ (c.asked = some [] ∧ c.receiveConfigure r = .done { c with results := some r } ()) := by
  unfold Client.receiveConfigure
  cases hq : c.asked with
  | none => exact Or.inl rfl
  | some q =>
    simp only
    cases hw : writeResults r with
    | none => exact Or.inl rfl
    | some p =>
      simp only
      by_cases hv : validResult p q = true
      · have := (C111_false_answered p q).1 hv
        subst this
        refine Or.inr ⟨rfl, ?_⟩
        rw [hv]
        rfl
      · rw [Bool.not_eq_true] at hv
        rw [hv]
        exact Or.inl rfl

/-- What a step leaves as it was, and what it changes. -/
structure StepFacts (c : Client) (e : ClientEvent) (c' : Client) (r : ClientReply) : Prop where
  version : c'.version = c.version
  asked : c'.asked = c.asked
  authorized : c'.authorized = true ↔ c.authorized = true ∨ SaidYes .authorize r
  submitted : c'.submitted = c.submitted + BitVec.ofNat 32 (shares [e])
  yes : SaidYes .submit r → c'.accepted = c.accepted + 1
  no : ¬ SaidYes .submit r → c'.accepted = c.accepted
  results : c.asked ≠ some [] → c'.results = c.results
  configure : c.asked ≠ some [] → ∀ j, r.handled = some (.response .configure j) → errorOf j = none → r.threw = true

theorem no_handled {r : ClientReply} {m : Method} (h : ∀ m j, r.handled ≠ some (.response m j)) : ¬ SaidYes m r := by
  rintro ⟨j, h1, -⟩
  exact h m j h1

theorem step_facts (c : Client) (e : ClientEvent) : ∃ c' r, c.step e = some (c', r) ∧ StepFacts c e c' r := by
  have quiet : ∀ (c' : Client) (r : ClientReply), c'.version = c.version → c'.asked = c.asked → c'.authorized = c.authorized →
      c'.submitted = c.submitted + BitVec.ofNat 32 (shares [e]) → c'.accepted = c.accepted → c'.results = c.results →
      (∀ m j, r.handled ≠ some (.response m j)) → StepFacts c e c' r := by
    intro c' r h1 h2 h3 h4 h5 h6 h7
    refine ⟨h1, h2, ?_, h4, fun h => absurd h (no_handled h7), fun _ => h5, fun _ => h6, fun _ j h => absurd h (h7 _ _)⟩
    rw [h3]
    exact ⟨Or.inl, fun h => h.resolve_right (no_handled h7)⟩
  cases e with
  | sendConfigure p => exact ⟨_, _, rfl, quiet _ _ rfl rfl rfl (by simp [shares]) rfl rfl (by simp)⟩
  | sendAuthorize p => exact ⟨_, _, rfl, quiet _ _ rfl rfl rfl (by simp [shares]) rfl rfl (by simp)⟩
  | sendSubscribe p => exact ⟨_, _, rfl, quiet _ _ rfl rfl rfl (by simp [shares]) rfl rfl (by simp)⟩
  | sendSubmit p => exact ⟨_, _, rfl, quiet _ _ rfl rfl rfl (by simp [shares]) rfl rfl (by simp)⟩
  | finish k => exact ⟨_, _, rfl, quiet _ _ rfl rfl rfl (by simp [shares]) rfl rfl (by simp)⟩
  | receive j =>
    unfold Client.step
    cases hh : (c.remote.receive j).2 with
    | notification n =>
      simp only [hh]
      exact ⟨_, _, rfl, quiet _ _ rfl rfl rfl (by simp [shares]) rfl rfl (by simp)⟩
    | threw =>
      simp only [hh]
      exact ⟨_, _, rfl, quiet _ _ rfl rfl rfl (by simp [shares]) rfl rfl (by simp)⟩
    | request q =>
      simp only [hh]
      exact ⟨_, _, rfl, quiet _ _ rfl rfl rfl (by simp [shares]) rfl rfl (by simp)⟩
    | response m j' =>
      obtain ⟨rfl, hv, -⟩ := client_receive_response hh
      simp only [hh]
      have yes_iff : ∀ (m' : Method) (t : Bool), SaidYes m' { handled := some (.response m j'), threw := t } ↔
          m = m' ∧ errorOf j' = none ∧ resultOf j' = .bool true := by
        intro m' t
        constructor
        · rintro ⟨x, h1, h2, h3⟩
          cases h1
          exact ⟨rfl, h2, h3⟩
        · rintro ⟨rfl, h2, h3⟩
          exact ⟨j', rfl, h2, h3⟩
      -- whatever leaves everything alone
      have same : ∀ (t : Bool), (m = .authorize → ¬ (errorOf j' = none ∧ resultOf j' = .bool true)) →
          (m = .submit → ¬ (errorOf j' = none ∧ resultOf j' = .bool true)) →
          (m = .configure → c.asked ≠ some [] → errorOf j' = none → t = true) →
          StepFacts c (.receive j') { c with remote := (c.remote.receive j').1 } { handled := some (.response m j'), threw := t } := by
        intro t ha hs hc
        refine ⟨rfl, rfl, ?_, by simp [shares], ?_, fun _ => rfl, fun _ => rfl, ?_⟩
        · exact ⟨Or.inl, fun h => h.resolve_right fun hy => by
            obtain ⟨rfl, h2, h3⟩ := (yes_iff _ _).1 hy
            exact ha rfl ⟨h2, h3⟩⟩
        · intro hy
          obtain ⟨rfl, h2, h3⟩ := (yes_iff _ _).1 hy
          exact absurd ⟨h2, h3⟩ (hs rfl)
        · intro hq x hx he
          cases hx
          exact hc rfl hq he
      unfold Client.receiveResponse
      cases m with
      | configure =>
        simp only
        cases he : errorOf j' with
        | some er => exact ⟨_, _, rfl, same false (by simp) (by simp) (by simp [he])⟩
        | none =>
          simp only
          cases hr : resultOf j' with
          | obj p =>
            simp only
            cases hx : readResults p with
            | none => exact ⟨_, _, rfl, same true (by simp) (by simp) (by simp)⟩
            | some x =>
              simp only
              rcases receiveConfigure_eq { c with remote := (c.remote.receive j').1 } x with h | ⟨h0, h⟩
              · rw [h]
                exact ⟨_, _, rfl, same true (by simp) (by simp) (by simp)⟩
              · rw [h]
                refine ⟨_, _, rfl, rfl, rfl, ?_, by simp [shares], ?_, fun _ => rfl, fun hq => absurd h0 hq, fun hq => absurd h0 hq⟩
                · exact ⟨Or.inl, fun h => h.resolve_right fun hy => by
                    have := ((yes_iff _ _).1 hy).1
                    cases this⟩
                · intro hy
                  have := ((yes_iff _ _).1 hy).1
                  cases this
          | null => exact ⟨_, _, rfl, same true (by simp) (by simp) (by simp)⟩
          | bool b => exact ⟨_, _, rfl, same true (by simp) (by simp) (by simp)⟩
          | int n => exact ⟨_, _, rfl, same true (by simp) (by simp) (by simp)⟩
          | real => exact ⟨_, _, rfl, same true (by simp) (by simp) (by simp)⟩
          | str s => exact ⟨_, _, rfl, same true (by simp) (by simp) (by simp)⟩
          | arr l => exact ⟨_, _, rfl, same true (by simp) (by simp) (by simp)⟩
      | authorize =>
        simp only
        cases he : errorOf j' with
        | some er => exact ⟨_, _, rfl, same false (by simp [he]) (by simp) (by simp)⟩
        | none =>
          simp only
          by_cases hb : boolResponseValid j' = true
          · rw [if_pos hb]
            have hbr : boolResult j' = true ↔ resultOf j' = .bool true := by
              rw [boolResult, hb, he]
              cases hr : resultOf j' <;> simp
            refine ⟨_, _, rfl, rfl, rfl, ?_, by simp [shares], ?_, fun _ => rfl, fun _ => rfl, ?_⟩
            · show (c.authorized || boolResult j') = true ↔ _
              rw [Bool.or_eq_true, yes_iff, hbr]
              simp [he]
            · intro hy
              have := ((yes_iff _ _).1 hy).1
              cases this
            · intro _ x hx
              cases hx
          · rw [if_neg hb]
            refine ⟨_, _, rfl, same true (fun _ h => hb ?_) (by simp) (by simp)⟩
            simp [boolResponseValid, hv, h.2]
      | submit =>
        simp only
        cases he : errorOf j' with
        | some er => exact ⟨_, _, rfl, same false (by simp) (by simp [he]) (by simp)⟩
        | none =>
          simp only
          cases hr : resultOf j' with
          | bool b =>
            simp only
            refine ⟨_, _, rfl, rfl, rfl, ?_, by simp [shares], ?_, ?_, fun _ => rfl, ?_⟩
            · exact ⟨Or.inl, fun h => h.resolve_right fun hy => by
                have := ((yes_iff _ _).1 hy).1
                cases this⟩
            · intro hy
              have := ((yes_iff _ _).1 hy).2.2
              rw [hr] at this
              cases this
              rfl
            · intro hy
              cases b with
              | false => rfl
              | true => exact absurd ((yes_iff _ _).2 ⟨rfl, he, hr⟩) hy
            · intro _ x hx
              cases hx
          | null => exact ⟨_, _, rfl, same true (by simp) (by simp [hr]) (by simp)⟩
          | obj b => exact ⟨_, _, rfl, same true (by simp) (by simp [hr]) (by simp)⟩
          | int n => exact ⟨_, _, rfl, same true (by simp) (by simp [hr]) (by simp)⟩
          | real => exact ⟨_, _, rfl, same true (by simp) (by simp [hr]) (by simp)⟩
          | str s => exact ⟨_, _, rfl, same true (by simp) (by simp [hr]) (by simp)⟩
          | arr l => exact ⟨_, _, rfl, same true (by simp) (by simp [hr]) (by simp)⟩
      | subscribe => exact ⟨_, _, rfl, same false (by simp) (by simp) (by simp)⟩
      | unset => exact ⟨_, _, rfl, same true (by simp) (by simp) (by simp)⟩
      | notify => exact ⟨_, _, rfl, same true (by simp) (by simp) (by simp)⟩
      | setDifficulty => exact ⟨_, _, rfl, same true (by simp) (by simp) (by simp)⟩
      | setVersionMask => exact ⟨_, _, rfl, same true (by simp) (by simp) (by simp)⟩
      | setExtranonce => exact ⟨_, _, rfl, same true (by simp) (by simp) (by simp)⟩
      | suggestDifficulty => exact ⟨_, _, rfl, same true (by simp) (by simp) (by simp)⟩
      | suggestTarget => exact ⟨_, _, rfl, same true (by simp) (by simp) (by simp)⟩
      | getVersion => exact ⟨_, _, rfl, same true (by simp) (by simp) (by simp)⟩
      | reconnect => exact ⟨_, _, rfl, same true (by simp) (by simp) (by simp)⟩
      | getTransactions => exact ⟨_, _, rfl, same true (by simp) (by simp) (by simp)⟩
      | showMessage => exact ⟨_, _, rfl, same true (by simp) (by simp) (by simp)⟩

/-! Everything that happens -/

theorem client_run_cons {c c' : Client} {e : ClientEvent} {l : List ClientEvent} {rs : List ClientReply} (h : c.run (e :: l) = some (c', rs)) :
    ∃ c1 r rs', c.step e = some (c1, r) ∧ StepFacts c e c1 r ∧ c1.run l = some (c', rs') ∧ rs = r :: rs' := by
  obtain ⟨c1, r, h1, h2⟩ := step_facts c e
  unfold Client.run at h
  rw [h1] at h
  simp only at h
  cases hr : c1.run l with
  | none => rw [hr] at h; simp at h
  | some x =>
    obtain ⟨c2, rs'⟩ := x
    rw [hr] at h
    simp only [Option.some.injEq, Prod.mk.injEq] at h
    obtain ⟨rfl, rfl⟩ := h
    exact ⟨c1, r, rs', h1, h2, hr, rfl⟩

theorem run_defined (c : Client) (l : List ClientEvent) : ∃ c' rs, c.run l = some (c', rs) := by
  induction l generalizing c with
  | nil => exact ⟨c, [], rfl⟩
  | cons e l ih =>
    obtain ⟨c1, r, h1, -⟩ := step_facts c e
    obtain ⟨c2, rs, h2⟩ := ih c1
    exact ⟨c2, r :: rs, by unfold Client.run; simp only [h1, h2]⟩

/-- **C112** Whatever is sent and received, nothing is undefined. -/
theorem C112_defined (version : List Char) (asked : Option Requests) (l : List ClientEvent) :
    ∃ c rs, (fresh version asked).run l = some (c, rs) := run_defined _ l

theorem run_authorized {c c' : Client} {l : List ClientEvent} {rs : List ClientReply} (h : c.run l = some (c', rs)) :
    c'.authorized = true ↔ c.authorized = true ∨ ∃ r ∈ rs, SaidYes .authorize r := by
  induction l generalizing c rs with
  | nil =>
    simp only [Client.run, Option.some.injEq, Prod.mk.injEq] at h
    obtain ⟨rfl, rfl⟩ := h
    simp
  | cons e l ih =>
    obtain ⟨c1, r, rs', -, h2, h3, rfl⟩ := client_run_cons h
    rw [ih h3, h2.authorized]
    constructor
    · rintro ((h | h) | ⟨x, hx, h⟩)
      · exact Or.inl h
      · exact Or.inr ⟨r, List.mem_cons_self, h⟩
      · exact Or.inr ⟨x, List.mem_cons_of_mem _ hx, h⟩
    · rintro (h | ⟨x, hx, h⟩)
      · exact Or.inl (Or.inl h)
      · rcases List.mem_cons.1 hx with hxr | hx
        · exact Or.inl (Or.inr (hxr ▸ h))
        · exact Or.inr ⟨x, hx, h⟩

/-- **C112** Whatever happens in a session, the client takes itself to be authorised if and only if the server has said yes to one of its
requests to be.
Missing: the answers to configure requests and to requests for the version (`C112_false_configure`, `C112_false_version`). -/
theorem C112_authorized_partial (version : List Char) (asked : Option Requests) (l : List ClientEvent) (c : Client) (rs : List ClientReply)
    (h : (fresh version asked).run l = some (c, rs)) : c.authorized = true ↔ ∃ r ∈ rs, SaidYes .authorize r := by
  rw [run_authorized h]
  simp [fresh]

/-- How many shares have been sent and not answered. -/
def pending (r : Remote) : Nat := r.table.countP (fun e => e.2 = .submit) + r.waiting.countP (fun e => e.2 = .submit)

theorem pending_start (r : Remote) (m : Method) (p : List Json) :
    pending (r.start m p).1 = pending r + if m = .submit then 1 else 0 := by
  simp only [pending, Remote.start, List.countP_append, List.countP_singleton, decide_eq_true_eq]
  omega

theorem countP_eraseIdx {α : Type} (p : α → Bool) (l : List α) (k : Nat) (x : α) (h : l[k]? = some x) :
    (l.eraseIdx k).countP p + (if p x then 1 else 0) = l.countP p := by
  induction l generalizing k with
  | nil => simp at h
  | cons a l ih =>
    cases k with
    | zero =>
      simp only [List.getElem?_cons_zero, Option.some.injEq] at h
      subst h
      rw [List.eraseIdx_cons_zero, List.countP_cons]
    | succ k =>
      rw [List.getElem?_cons_succ] at h
      rw [List.eraseIdx_cons_succ, List.countP_cons, List.countP_cons, ← ih k h]
      omega

theorem countP_filter_le {α : Type} (p q : α → Bool) (l : List α) : (l.filter q).countP p ≤ l.countP p := by
  rw [List.countP_eq_length_filter, List.filter_filter, List.countP_eq_length_filter, ← List.countP_eq_length_filter,
    ← List.countP_eq_length_filter]
  exact List.countP_mono_left fun x _ h => by
    simp only [Bool.and_eq_true] at h
    exact h.1

theorem pending_finish (r : Remote) (k : Nat) : pending (r.finish k).1 ≤ pending r := by
  unfold Remote.finish
  cases h : r.waiting[k]? with
  | none => exact Nat.le_refl _
  | some x =>
    obtain ⟨id, m⟩ := x
    have h1 := countP_eraseIdx (fun e : BitVec 32 × Method => decide (e.2 = .submit)) r.waiting k _ h
    have h2 := countP_filter_le (fun e : Nat × Method => decide (e.2 = .submit)) (fun e => decide (e.1 ≠ id.toNat)) r.table
    simp only [decide_eq_true_eq] at h1
    simp only [pending, insertMethod, List.countP_cons, decide_eq_true_eq]
    omega

theorem pending_receive (r : Remote) (j : Json) (m : Method) (j' : Json) (h : (r.receive j).2 = .response m j') :
    pending (r.receive j).1 + (if m = .submit then 1 else 0) ≤ pending r := by
  obtain ⟨-, -, n, h1, h2⟩ := client_receive_response h
  rw [h2]
  have : (r.table.filter fun e => decide (e.1 ≠ n)).countP (fun e => decide (e.2 = .submit)) + (if m = .submit then 1 else 0) ≤
      r.table.countP fun e => decide (e.2 = .submit) := by
    unfold Remote.find at h1
    generalize r.table = t at h1
    clear h h2
    induction t with
    | nil => simp at h1
    | cons e t ih =>
      by_cases he : e.1 = n
      · rw [List.find?_cons_of_pos (by simpa using he)] at h1
        simp only [Option.map_some, Option.some.injEq] at h1
        rw [List.filter_cons_of_neg (by simp [he]), List.countP_cons, h1]
        have := countP_filter_le (fun e : Nat × Method => decide (e.2 = .submit)) (fun e => decide (e.1 ≠ n)) t
        simp only [decide_eq_true_eq]
        omega
      · rw [List.find?_cons_of_neg (by simpa using he)] at h1
        have := ih h1
        rw [List.filter_cons_of_pos (by simp [he]), List.countP_cons, List.countP_cons]
        omega
  simp only [pending]
  omega

theorem step_pending {c c1 : Client} {e : ClientEvent} {r : ClientReply} (h : c.step e = some (c1, r)) :
    (SaidYes .submit r → pending c1.remote + 1 ≤ pending c.remote + shares [e]) ∧ pending c1.remote ≤ pending c.remote + shares [e] := by
  have send : ∀ (m : Method) (p : List Json), c1.remote = (c.remote.start m p).1 → r.handled = none →
      (if m = .submit then 1 else 0) = shares [e] →
      (SaidYes .submit r → pending c1.remote + 1 ≤ pending c.remote + shares [e]) ∧ pending c1.remote ≤ pending c.remote + shares [e] := by
    intro m p h1 h2 h3
    refine ⟨fun hy => absurd hy (no_handled (by simp [h2])), ?_⟩
    rw [h1, pending_start, h3]
    exact Nat.le_refl _
  cases e with
  | sendConfigure p => cases h; exact send .configure p rfl rfl rfl
  | sendAuthorize p => cases h; exact send .authorize p rfl rfl rfl
  | sendSubscribe p => cases h; exact send .subscribe p rfl rfl rfl
  | sendSubmit p => cases h; exact send .submit p rfl rfl rfl
  | finish k =>
    cases h
    exact ⟨fun hy => absurd hy (no_handled (by simp)), pending_finish _ _⟩
  | receive j =>
    have hrem : c1.remote = (c.remote.receive j).1 ∧ r.handled = some (c.remote.receive j).2 := by
      unfold Client.step at h
      simp only at h
      split at h
      · cases h; exact ⟨rfl, rfl⟩
      · cases h; exact ⟨rfl, rfl⟩
      · cases h; exact ⟨rfl, rfl⟩
      · rename_i m j' hh
        have hkeep : ∀ (d : Client) (m : Method) (j' : Json),
            (∀ d' u, d.receiveResponse m j' = .done d' u → d'.remote = d.remote) ∧
            (∀ d', d.receiveResponse m j' = .threw d' → d'.remote = d.remote) := by
          intro d m j'
          unfold Client.receiveResponse
          cases m <;> simp only
          case configure =>
            split
            · exact ⟨fun d' u h => (by cases h; rfl), fun d' h => (by cases h)⟩
            · split
              · split
                · rename_i x hx
                  rcases receiveConfigure_eq d x with h | ⟨-, h⟩ <;> rw [h]
                  · exact ⟨fun d' u h => (by cases h), fun d' h => (by cases h; rfl)⟩
                  · exact ⟨fun d' u h => (by cases h; rfl), fun d' h => (by cases h)⟩
                · exact ⟨fun d' u h => (by cases h), fun d' h => (by cases h; rfl)⟩
              · exact ⟨fun d' u h => (by cases h), fun d' h => (by cases h; rfl)⟩
          case authorize =>
            split
            · exact ⟨fun d' u h => (by cases h; rfl), fun d' h => (by cases h)⟩
            · split
              · exact ⟨fun d' u h => (by cases h; rfl), fun d' h => (by cases h)⟩
              · exact ⟨fun d' u h => (by cases h), fun d' h => (by cases h; rfl)⟩
          case submit =>
            split
            · exact ⟨fun d' u h => (by cases h; rfl), fun d' h => (by cases h)⟩
            · split
              · exact ⟨fun d' u h => (by cases h; rfl), fun d' h => (by cases h)⟩
              · exact ⟨fun d' u h => (by cases h), fun d' h => (by cases h; rfl)⟩
          case subscribe => exact ⟨fun d' u h => (by cases h; rfl), fun d' h => (by cases h)⟩
          all_goals exact ⟨fun d' u h => (by cases h), fun d' h => (by cases h; rfl)⟩
        obtain ⟨k1, k2⟩ := hkeep { c with remote := (c.remote.receive j).1 } m j'
        split at h
        · rename_i d u hd
          cases h
          exact ⟨k1 _ _ hd, rfl⟩
        · rename_i d hd
          cases h
          exact ⟨k2 _ hd, rfl⟩
        · cases h
    rw [hrem.1]
    have h0 : shares [.receive j] = 0 := rfl
    rw [h0]
    by_cases hr : ∃ m j', (c.remote.receive j).2 = .response m j'
    · obtain ⟨m, j', hr⟩ := hr
      have := pending_receive c.remote j m j' hr
      refine ⟨?_, by omega⟩
      rintro ⟨x, hx, -⟩
      rw [hrem.2, hr] at hx
      cases hx
      rw [if_pos rfl] at this
      omega
    · have h1 := client_receive_other (r := c.remote) (j := j) fun m j' h => hr ⟨m, j', h⟩
      refine ⟨?_, by rw [h1]; exact Nat.le_refl _⟩
      rintro ⟨x, hx, -⟩
      rw [hrem.2] at hx
      exact absurd ⟨_, _, Option.some.inj hx⟩ hr

theorem shares_cons (e : ClientEvent) (l : List ClientEvent) : shares (e :: l) = shares [e] + shares l := by
  cases e <;> simp [shares]
  omega

theorem run_counts {c c' : Client} {l : List ClientEvent} {rs : List ClientReply} (h : c.run l = some (c', rs)) :
    c'.submitted = c.submitted + BitVec.ofNat 32 (shares l) ∧
    ∃ n, AcceptedShares rs n ∧ c'.accepted = c.accepted + BitVec.ofNat 32 n ∧ n ≤ pending c.remote + shares l := by
  induction l generalizing c rs with
  | nil =>
    simp only [Client.run, Option.some.injEq, Prod.mk.injEq] at h
    obtain ⟨rfl, rfl⟩ := h
    exact ⟨by simp [shares], 0, .none, by simp, Nat.zero_le _⟩
  | cons e l ih =>
    obtain ⟨c1, r, rs', h1, h2, h3, rfl⟩ := client_run_cons h
    obtain ⟨i1, n, i2, i3, i4⟩ := ih h3
    obtain ⟨p1, p2⟩ := step_pending h1
    refine ⟨?_, ?_⟩
    · rw [i1, h2.submitted, shares_cons e l, BitVec.ofNat_add, BitVec.add_assoc]
    · rw [shares_cons e l]
      by_cases hy : SaidYes .submit r
      · refine ⟨n + 1, .yes r rs' n hy i2, ?_, by have := p1 hy; omega⟩
        rw [i3, h2.yes hy, BitVec.ofNat_add, BitVec.add_assoc, BitVec.add_comm 1]
        rfl
      · refine ⟨n, .no r rs' n hy i2, by rw [i3, h2.no hy], by omega⟩

/-- **C112** Whatever happens in a session, and however the sending of requests is interleaved, the shares that are counted as sent and as accepted
are those that were sent and those that the server said yes to, modulo 2^32, and no more of them were accepted than were sent. -/
theorem C112_counts (version : List Char) (asked : Option Requests) (l : List ClientEvent) (c : Client) (rs : List ClientReply)
    (h : (fresh version asked).run l = some (c, rs)) :
    c.submitted = BitVec.ofNat 32 (shares l) ∧
    ∃ n, AcceptedShares rs n ∧ c.accepted = BitVec.ofNat 32 n ∧ n ≤ shares l := by
  obtain ⟨h1, n, h2, h3, h4⟩ := run_counts h
  refine ⟨by simpa [fresh] using h1, n, h2, by simpa [fresh] using h3, ?_⟩
  have : pending (fresh version asked).remote = 0 := rfl
  omega

/-- A session in which the client is authorised, and has two shares accepted of three, while one was sent before the other was under way. -/
example : (((fresh [] none).run [.sendAuthorize [], .finish 0, .receive (makeBool (.int 0) true), .sendSubmit [], .finish 0, .sendSubmit [],
      .finish 0, .receive (makeBool (.int 2) true), .sendSubmit [], .receive (makeBool (.int 1) true), .finish 0,
      .receive (makeBool (.int 3) false)]).map fun x => (x.1.authorized, x.1.submitted, x.1.accepted)) = some (true, 3, 2) := by
  decide +kernel

/-- **C112, false as stated** If the client has asked for anything, every answer that is not an error is an exception, whatever the server has
answered, and nothing is kept of it. -/
theorem C112_false_configure (version : List Char) (q : Requests) (hq : q ≠ []) (l : List ClientEvent) (c : Client)
    (rs : List ClientReply) (h : (fresh version (some q)).run l = some (c, rs)) :
    c.results = none ∧ ∀ r ∈ rs, ∀ j, r.handled = some (.response .configure j) → errorOf j = none → r.threw = true := by
  have key : ∀ (d : Client), d.asked ≠ some [] → d.results = none → ∀ rs, d.run l = some (c, rs) →
      c.results = none ∧ ∀ r ∈ rs, ∀ j, r.handled = some (.response .configure j) → errorOf j = none → r.threw = true := by
    clear h
    induction l with
    | nil =>
      intro d _ hd rs h
      simp only [Client.run, Option.some.injEq, Prod.mk.injEq] at h
      obtain ⟨rfl, rfl⟩ := h
      exact ⟨hd, by simp⟩
    | cons e l ih =>
      intro d h0 hd rs h
      obtain ⟨c1, r, rs', h1, h2, h3, rfl⟩ := client_run_cons h
      obtain ⟨i1, i2⟩ := ih c1 (by rw [h2.asked]; exact h0) (by rw [h2.results h0]; exact hd) rs' h3
      refine ⟨i1, ?_⟩
      intro x hx
      rcases List.mem_cons.1 hx with rfl | hx
      · exact h2.configure h0
      · exact i2 x hx
  exact key _ (by simpa [fresh] using hq) rfl rs h

/-- **C112, false as stated** A client that is asked for its version answers, and then answers again that there is no such method, and that
is an exception. -/
theorem C112_false_version (c : Client) (j : Json) (h1 : notificationValid j = false) (h2 : responseValid j = false)
    (h3 : requestValid j = true) (h4 : methodOf j = .getVersion) (h5 : paramsOf j = []) :
    c.step (.receive j) = some (c, {
      sent := [makeResponse (idOf j) (.str c.version) none, makeResponse (idOf j) .null (some illegalMethod)]
      handled := some (.request j)
      threw := true }) := by
  have hr : c.remote.receive j = (c.remote, .request j) := by
    unfold Remote.receive
    simp [h1, h2, h3]
  unfold Client.step
  simp only [hr, Client.receiveRequest, getVersionValid, h3, h4, h5]
  rfl

/-- **C112, false as stated** No request is answered without an exception: for all others than one for the version that has no
parameters there is only the answer that there is no such method. -/
theorem C112_false_requests (c : Client) (j : Json) (h1 : notificationValid j = false) (h2 : responseValid j = false)
    (h3 : requestValid j = true) : ∃ r, c.step (.receive j) = some (c, r) ∧ r.threw = true ∧
      (¬ (methodOf j = .getVersion ∧ paramsOf j = []) → r.sent = [makeResponse (idOf j) .null (some illegalMethod)]) := by
  have hr : c.remote.receive j = (c.remote, .request j) := by
    unfold Remote.receive
    simp [h1, h2, h3]
  unfold Client.step
  simp only [hr]
  refine ⟨_, rfl, rfl, fun h => ?_⟩
  have hv : getVersionValid j = false := by
    rw [Bool.eq_false_iff]
    intro hv
    unfold getVersionValid at hv
    simp only [Bool.and_eq_true, decide_eq_true_eq, List.length_eq_zero_iff] at hv
    exact h ⟨hv.1.2, hv.2⟩
  simp only [Client.receiveRequest, hv]
  rfl

/-- The request for the version, as it is written. -/
example : let j := makeRequest (.number 5) .getVersion []
    notificationValid j = false ∧ responseValid j = false ∧ requestValid j = true ∧ methodOf j = .getVersion ∧ paramsOf j = [] := by
  decide +kernel

end Verif.Stratum
