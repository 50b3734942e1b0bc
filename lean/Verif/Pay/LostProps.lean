import Verif.Pay.Lost
import Verif.Pay.EnvelopeProps

/-
C193: reading an SPV envelope leaves nothing in memory but the envelope.
-/

namespace Verif.Pay

open Verif Verif.SPV Verif.Net Verif.Text

variable {M : Type}

/-! ### The answers are the same -/

theorem heldJMap_fst {node : Json → Except PErr (Option (ENode M)) × Nat} {node' : Json → Except PErr (Option (ENode M))}
    (h : ∀ v, (node v).1 = node' v) : ∀ l, (heldJMap node l).1 = readJMap node' l
  | [] => rfl
  | (key, v) :: l => by
    have h0 := h v
    have ih := heldJMap_fst h l
    rw [heldJMap, readJMap, ← h0, ← ih]
    generalize node v = y
    generalize heldJMap node l = z
    obtain ⟨r, d⟩ := y
    obtain ⟨r', d'⟩ := z
    cases r with
    | error e => rfl
    | ok n =>
      cases n with
      | none => rfl
      | some n =>
        simp only
        cases readId (.str key) with
        | none => rfl
        | some k =>
          cases r' with
          | error e => rfl
          | ok m => cases m <;> rfl

theorem heldJTop_fst {node : Json → Except PErr (Option (ENode M)) × Nat} {node' : Json → Except PErr (Option (ENode M))}
    (h : ∀ v, (node v).1 = node' v) : ∀ l, (heldJTop node l).1 = readJMap node' l
  | [] => rfl
  | (key, v) :: l => by
    have h0 := h v
    have ih := heldJTop_fst h l
    rw [heldJTop, readJMap, ← h0, ← ih]
    generalize node v = y
    generalize heldJTop node l = z
    obtain ⟨r, d⟩ := y
    obtain ⟨r', d'⟩ := z
    cases r with
    | error e => rfl
    | ok n =>
      cases n with
      | none => rfl
      | some n =>
        simp only
        cases readId (.str key) with
        | none => rfl
        | some k =>
          cases r' with
          | error e => rfl
          | ok m => cases m <;> rfl

theorem heldJNode_fst (C : MapiCodec M) : ∀ (d : Nat) (j : Json), (heldJNode C d j).1 = readJNode C d j
  | 0, _ => rfl
  | d + 1, j => by
    rw [heldJNode, readJNode]
    split
    · rfl
    · cases readHexAt j "rawTx".toList with
      | none => rfl
      | some raw =>
        cases readMapi C j with
        | none => rfl
        | some mapi =>
          simp only
          cases j.get "proof".toList with
          | some _ =>
            simp only
            cases readHexAt j "proof".toList with
            | none => rfl
            | some b =>
              simp only
              cases Tsc.readBinary b with
              | none => rfl
              | some p => simp only; split <;> rfl
          | none =>
            simp only
            cases j.get "inputs".toList with
            | none => rfl
            | some i =>
              cases i with
              | obj l =>
                simp only
                rw [← heldJMap_fst (heldJNode_fst C d) l]
                generalize heldJMap (heldJNode C d) l = z
                obtain ⟨r, n⟩ := z
                cases r with
                | error e => rfl
                | ok m => cases m <;> rfl
              | _ => rfl

/-- **C193**: counting nodes changes nothing in what is read. -/
theorem C193_same (C : MapiCodec M) (depth : Nat) (j : Json) : (heldOfJson C depth j).1 = Envelope.ofJson C depth j := by
  unfold heldOfJson Envelope.ofJson
  cases readHexAt j "rawTx".toList with
  | none => rfl
  | some raw =>
    cases j.get "inputs".toList with
    | none => rfl
    | some i =>
      cases i with
      | obj l =>
        cases readMapi C j with
        | none => rfl
        | some mapi =>
          simp only
          rw [← heldJTop_fst (heldJNode_fst C depth) l]
          generalize heldJTop (heldJNode C depth) l = z
          obtain ⟨r, n⟩ := z
          cases r with
          | error e => rfl
          | ok m =>
            cases m with
            | none => rfl
            | some m =>
              simp only
              cases j.get "txid".toList with
              | none => rfl
              | some v => simp only; cases readId v <;> rfl
      | _ => rfl

/-! ### Specification: where a node is lost -/

/-- The entries up to one are read, and that one can be read but is not filed under a transaction id, or loses one inside. -/
def LosesIn (node : Json → Except PErr (Option (ENode M))) (loses : Json → Prop) (l : List (List Char × Json)) : Prop :=
  ∃ pre key v post, l = pre ++ (key, v) :: post ∧ (∀ e ∈ pre, (∃ n, node e.2 = .ok (some n)) ∧ ∃ k, readId (.str e.1) = some k) ∧
    (((∃ n, node v = .ok (some n)) ∧ readId (.str key) = none) ∨ loses v)

/-- The same for a node. -/
def Loses (C : MapiCodec M) : Nat → Json → Prop
  | 0, _ => False
  | d + 1, j => j.get "proof".toList = none ∧ (readHexAt j "rawTx".toList).isSome ∧ (readMapi C j).isSome ∧
      ∃ l, j.get "inputs".toList = some (.obj l) ∧ LosesIn (readJNode C d) (Loses C d) l

/-- The same for an envelope. -/
def EnvelopeLoses (C : MapiCodec M) (depth : Nat) (j : Json) : Prop :=
  (readHexAt j "rawTx".toList).isSome ∧ (readMapi C j).isSome ∧
    ∃ l, j.get "inputs".toList = some (.obj l) ∧ LosesIn (readJNode C depth) (Loses C depth) l

/-! ### Proof -/

theorem losesIn_nil (node : Json → Except PErr (Option (ENode M))) (loses : Json → Prop) : ¬ LosesIn node loses [] := by
  rintro ⟨pre, key, v, post, h, _⟩
  simp at h

theorem losesIn_cons (node : Json → Except PErr (Option (ENode M))) (loses : Json → Prop) (key : List Char) (v : Json) (l) :
    LosesIn node loses ((key, v) :: l) ↔ (((∃ n, node v = .ok (some n)) ∧ readId (.str key) = none) ∨ loses v) ∨
      ((∃ n, node v = .ok (some n)) ∧ (∃ k, readId (.str key) = some k) ∧ LosesIn node loses l) := by
  constructor
  · rintro ⟨pre, key', v', post, h, hp, hl⟩
    cases pre with
    | nil =>
      simp only [List.nil_append, List.cons.injEq, Prod.mk.injEq] at h
      obtain ⟨⟨rfl, rfl⟩, rfl⟩ := h
      exact .inl hl
    | cons e pre =>
      simp only [List.cons_append, List.cons.injEq] at h
      obtain ⟨rfl, rfl⟩ := h
      have := hp (key, v) (by simp)
      exact .inr ⟨this.1, this.2, pre, key', v', post, rfl, fun e he => hp e (by simp [he]), hl⟩
  · rintro (h | ⟨h1, h2, pre, key', v', post, rfl, hp, hl⟩)
    · exact ⟨[], key, v, l, rfl, by simp, h⟩
    · refine ⟨(key, v) :: pre, key', v', post, rfl, fun e he => ?_, hl⟩
      rcases List.mem_cons.mp he with rfl | he
      · exact ⟨h1, h2⟩
      · exact hp e he

/-- What is shown of reading a node: what was read accounts for all nodes, and otherwise there are some exactly if one is lost. -/
structure Accounts (node : Json → Except PErr (Option (ENode M)) × Nat) (loses : Json → Prop) : Prop where
  read : ∀ v n d, node v = (.ok (some n), d) → d = n.nodes
  lost : ∀ v, loses v ↔ ∃ d, node v = (.ok none, d) ∧ 0 < d

theorem nodes_pos (n : ENode M) : 0 < n.nodes := by
  cases n
  simp [ENode.nodes]

theorem map_accounts {node : Json → Except PErr (Option (ENode M)) × Nat} {loses : Json → Prop} (h : Accounts node loses) :
    ∀ l, (∀ m d, heldJMap node l = (.ok (some m), d) → d = m.nodes) ∧
      (LosesIn (fun v => (node v).1) loses l ↔ ∃ d, heldJMap node l = (.ok none, d) ∧ 0 < d)
  | [] => by
    refine ⟨fun m d e => ?_, ?_⟩
    · simp only [heldJMap, Prod.mk.injEq, Except.ok.injEq, Option.some.injEq] at e
      rw [← e.1, ← e.2]
      rfl
    · exact ⟨fun hl => absurd hl (losesIn_nil _ _), fun ⟨d, e, _⟩ => by simp [heldJMap] at e⟩
  | (key, v) :: l => by
    obtain ⟨ih1, ih2⟩ := map_accounts h l
    have hr := h.read v
    have hl := h.lost v
    rw [losesIn_cons, ih2, hl, heldJMap]
    clear ih2 hl
    revert hr ih1
    generalize node v = y
    generalize heldJMap node l = z
    obtain ⟨r, d⟩ := y
    obtain ⟨r', d'⟩ := z
    intro ih1 hr
    cases r with
    | error e => simp
    | ok n =>
      cases n with
      | none => simp
      | some n =>
        have hd := hr n d rfl
        subst hd
        have hc := nodes_pos n
        simp only
        cases readId (.str key) with
        | none => simp [hc]
        | some k =>
          cases r' with
          | error e => simp
          | ok m =>
            cases m with
            | none => simp
            | some m =>
              have := ih1 m d' rfl
              subst this
              refine ⟨fun m' d e => ?_, by simp⟩
              simp only [Prod.mk.injEq, Except.ok.injEq, Option.some.injEq] at e
              rw [← e.1, ← e.2]
              rfl

theorem top_accounts {node : Json → Except PErr (Option (ENode M)) × Nat} {loses : Json → Prop} (h : Accounts node loses) :
    ∀ l, (∀ m d, heldJTop node l = (.ok (some m), d) → d = m.nodesIn) ∧
      (LosesIn (fun v => (node v).1) loses l ↔ ∃ d, heldJTop node l = (.ok none, d) ∧ 0 < d)
  | [] => by
    refine ⟨fun m d e => ?_, ?_⟩
    · simp only [heldJTop, Prod.mk.injEq, Except.ok.injEq, Option.some.injEq] at e
      rw [← e.1, ← e.2]
      rfl
    · exact ⟨fun hl => absurd hl (losesIn_nil _ _), fun ⟨d, e, _⟩ => by simp [heldJTop] at e⟩
  | (key, v) :: l => by
    obtain ⟨ih1, ih2⟩ := top_accounts h l
    have hr := h.read v
    have hl := h.lost v
    rw [losesIn_cons, ih2, hl, heldJTop]
    clear ih2 hl
    revert hr ih1
    generalize node v = y
    generalize heldJTop node l = z
    obtain ⟨r, d⟩ := y
    obtain ⟨r', d'⟩ := z
    intro ih1 hr
    cases r with
    | error e => simp
    | ok n =>
      cases n with
      | none => simp
      | some n =>
        have hd := hr n d rfl
        subst hd
        have hc := nodes_pos n
        simp only
        cases readId (.str key) with
        | none => simp [hc]
        | some k =>
          cases r' with
          | error e => simp
          | ok m =>
            cases m with
            | none => simp
            | some m =>
              have := ih1 m d' rfl
              subst this
              refine ⟨fun m' d e => ?_, by simp⟩
              simp only [Prod.mk.injEq, Except.ok.injEq, Option.some.injEq] at e
              rw [← e.1, ← e.2]
              rfl

theorem node_fun (C : MapiCodec M) (d : Nat) : (fun v => (heldJNode C d v).1) = readJNode C d := funext (heldJNode_fst C d)

theorem node_accounts (C : MapiCodec M) : ∀ d, Accounts (heldJNode C d) (Loses C d)
  | 0 => ⟨fun v n d e => by simp [heldJNode] at e, fun v => by simp [heldJNode, Loses]⟩
  | d + 1 => by
    have ih := map_accounts (node_accounts C d)
    rw [node_fun] at ih
    constructor
    · intro j n k e
      rw [heldJNode] at e
      split at e
      · simp at e
      · split at e
        · split at e
          · split at e
            · simp at e
            · split at e
              · simp at e
              · split at e
                · simp only [Prod.mk.injEq, Except.ok.injEq, Option.some.injEq] at e
                  rw [← e.1, ← e.2]
                  simp [ENode.nodes, EMap.nodes]
                · simp at e
          · split at e
            · rename_i l _
              have := (ih l).1
              revert this e
              generalize heldJMap (heldJNode C d) l = z
              obtain ⟨r, n⟩ := z
              intro e h
              cases r with
              | error e' => simp at e
              | ok m =>
                cases m with
                | none => simp at e
                | some m =>
                  have := h m n rfl
                  simp only [Prod.mk.injEq, Except.ok.injEq, Option.some.injEq] at e
                  rw [← e.1, ← e.2, this]
                  simp [ENode.nodes]
            · simp at e
        · simp at e
    · intro j
      rw [Loses, heldJNode]
      cases hp : j.get "proof".toList with
      | some p =>
        refine ⟨fun h => by simp at h, fun ⟨k, e, hk⟩ => ?_⟩
        exfalso
        split at e
        · simp only [Prod.mk.injEq, true_and] at e; omega
        · split at e
          · simp only at e
            split at e
            · simp only [Prod.mk.injEq, true_and] at e; omega
            · split at e
              · simp at e
              · split at e
                · simp at e
                · simp only [Prod.mk.injEq, true_and] at e; omega
          · simp only [Prod.mk.injEq, true_and] at e; omega
      | none =>
        cases hi : j.get "inputs".toList with
        | none => simp
        | some i =>
          simp only [Option.isSome_none, Option.isSome_some, Bool.false_eq_true, if_false]
          cases readHexAt j "rawTx".toList with
          | none => simp
          | some raw =>
            cases readMapi C j with
            | none => simp
            | some mapi =>
              cases i with
              | obj l =>
                have := (ih l).2
                simp only [Option.isSome_some, true_and, Option.some.injEq, Json.obj.injEq, exists_eq_left']
                rw [this]
                generalize heldJMap (heldJNode C d) l = z
                obtain ⟨r, n⟩ := z
                cases r with
                | error e => simp
                | ok m => cases m <;> simp
              | _ => simp

/-- **C193**: what is in memory after an envelope has been read are the nodes of the envelope, unless one is lost on the way, and
these are the cases in which one is.  Missing: `C193_false_left`. -/
theorem C193_left_iff_partial (C : MapiCodec M) (depth : Nat) (j : Json) (e : Envelope M) (d : Nat) (h : heldOfJson C depth j = (.ok e, d)) :
    d = e.inputs.nodesIn ↔ ¬ EnvelopeLoses C depth j := by
  have ih := top_accounts (node_accounts C depth)
  rw [node_fun] at ih
  unfold heldOfJson at h
  unfold EnvelopeLoses
  cases hr : readHexAt j "rawTx".toList with
  | none => rw [hr] at h; simp at h; rw [← h.1, ← h.2]; simp [EMap.nodesIn]
  | some raw =>
    cases hi : j.get "inputs".toList with
    | none => rw [hr, hi] at h; simp at h; rw [← h.1, ← h.2]; simp [EMap.nodesIn]
    | some i =>
      cases hm : readMapi C j with
      | none => rw [hr, hi, hm] at h; simp at h; rw [← h.1, ← h.2]; simp [EMap.nodesIn]
      | some mapi =>
        rw [hr, hi, hm] at h
        cases i with
        | obj l =>
          simp only [Option.isSome_some, true_and, Option.some.injEq, Json.obj.injEq, exists_eq_left']
          rw [(ih l).2]
          have h1 := (ih l).1
          revert h h1
          simp only
          generalize heldJTop (heldJNode C depth) l = z
          obtain ⟨r, n⟩ := z
          intro h h1
          cases r with
          | error e => simp at h
          | ok m =>
            cases m with
            | none =>
              simp only [Prod.mk.injEq, Except.ok.injEq] at h
              rw [← h.1, ← h.2]
              simp [EMap.nodesIn]
            | some m =>
              have := h1 m n rfl
              subst this
              simp only at h
              split at h
              · simp only [Prod.mk.injEq, Except.ok.injEq] at h
                rw [← h.1, ← h.2]
                simp
              · split at h
                · simp only [Prod.mk.injEq, Except.ok.injEq] at h
                  rw [← h.1, ← h.2]
                  simp [EMap.nodesIn]
                · simp only [Prod.mk.injEq, Except.ok.injEq] at h
                  rw [← h.1, ← h.2]
                  simp
        | _ => simp at h; rw [← h.1, ← h.2]; simp [EMap.nodesIn]

/-- **C193, false as stated**: whatever node is filed under something that is no transaction id is left in memory, with all that belongs
to it. -/
theorem C193_false_left (C : MapiCodec M) (depth : Nat) (raw : Bytes) (key : List Char) (v : Json) (n : ENode M)
    (hv : readJNode C depth v = .ok (some n)) (hk : readId (.str key) = none) :
    heldOfJson C depth (.obj [("rawTx".toList, .str (hexWrite raw)), ("inputs".toList, .obj [(key, v)])]) =
      (.ok ⟨none, [], [], .nil⟩, n.nodes) ∧ 0 < n.nodes := by
  refine ⟨?_, nodes_pos n⟩
  have h1 := heldJNode_fst C depth v
  have h2 := (node_accounts C depth).read v
  rw [hv] at h1
  have : heldJNode C depth v = (.ok (some n), n.nodes) := by
    revert h1 h2
    generalize heldJNode C depth v = y
    obtain ⟨r, d⟩ := y
    intro h1 h2
    simp only at h1
    subst h1
    rw [h2 n d rfl]
  have hx : readHexAt (.obj [("rawTx".toList, .str (hexWrite raw)), ("inputs".toList, .obj [(key, v)])]) "rawTx".toList = some raw := by
    unfold readHexAt Json.get
    simp [hexRead_write]
  have hi : Json.get (.obj [("rawTx".toList, .str (hexWrite raw)), ("inputs".toList, .obj [(key, v)])]) "inputs".toList = some (.obj [(key, v)]) := by
    simp [Json.get]
  have hm : readMapi C (.obj [("rawTx".toList, .str (hexWrite raw)), ("inputs".toList, .obj [(key, v)])]) = some [] := by
    simp [readMapi, Json.get]
  unfold heldOfJson
  rw [hx, hi, hm]
  simp only [heldJTop, this, hk]

/-! ### Cases -/

def noMapi : MapiCodec Unit := ⟨fun _ => true, fun _ => .null, fun _ => ()⟩

/-- A node without inputs. -/
def bareNode : Json := .obj [("rawTx".toList, .str []), ("inputs".toList, .obj [])]

example : readJNode noMapi 3 bareNode = .ok (some (.mk [] [] none .nil)) := rfl
example : readId (.str "one".toList) = none := by decide +kernel

-- a node in a node
example : (heldOfJson noMapi 3 (.obj [("rawTx".toList, .str []), ("inputs".toList, .obj [("one".toList,
    .obj [("rawTx".toList, .str []), ("inputs".toList, .obj [(writeId 1, bareNode)])])])])).2 = 2 := by decide +kernel

-- filed under a transaction id nothing is left but what the envelope has
example : (heldOfJson noMapi 3 (.obj [("rawTx".toList, .str []), ("inputs".toList, .obj [(writeId 2,
    .obj [("rawTx".toList, .str []), ("inputs".toList, .obj [(writeId 1, bareNode)])])])])).2 = 1 := by decide +kernel

end Verif.Pay
