import Verif.Boost.Model
import Verif.Script.PatternProps

/-
Scanning a program with a sequence of patterns, instruction by instruction.
-/

namespace Verif.Boost

open Verif Script

/-- Scanning a program. -/
def scanOf (as : List Pat) (q : Program) : Log × Scan := (Pat.sequence as).scan 0 (q.flatMap Instr.write)

/-- A pattern that matches an instruction, whatever follows. -/
def One (a : Pat) (i : Instr) (l : Log) : Prop :=
  a.construct = a ∧ ∀ rest, a.scan 0 (i.write ++ rest) = (l, .ok rest)

/-- A pattern that does not match an instruction, whatever follows. -/
def Not (a : Pat) (i : Instr) : Prop :=
  a.construct = a ∧ ∀ rest, a.scan 0 (i.write ++ rest) = ([], .fail)

theorem sequence_cons (a : Pat) (as : List Pat) : Pat.sequence (a :: as) = .seq a.construct (Pat.sequence as) := rfl

theorem scanOf_nil : scanOf [] [] = ([], .ok []) := rfl

theorem scanOf_cons {a : Pat} {i : Instr} {l : Log} (h : One a i l) (as : List Pat) (q : Program) :
    scanOf (a :: as) (i :: q) = (l ++ (scanOf as q).1, (scanOf as q).2) := by
  unfold scanOf
  rw [sequence_cons, scan_seq, h.1, List.flatMap_cons, h.2]

theorem scanOf_not {a : Pat} {i : Instr} (h : Not a i) (as : List Pat) (q : Program) :
    scanOf (a :: as) (i :: q) = ([], .fail) := by
  unfold scanOf
  rw [sequence_cons, scan_seq, h.1, List.flatMap_cons, h.2]

theorem scanOf_opt {a : Pat} {i : Instr} {l : Log} (h : One a i l) (as : List Pat) (q : Program) :
    scanOf (.opt a :: as) (i :: q) = (l ++ (scanOf as q).1, (scanOf as q).2) := by
  refine scanOf_cons ⟨rfl, fun rest => ?_⟩ as q
  rw [Pat.scan, h.2]

theorem scanOf_opt_not {a : Pat} {i : Instr} (h : Not a i) (as : List Pat) (q : Program) :
    scanOf (.opt a :: as) (i :: q) = scanOf as (i :: q) := by
  unfold scanOf
  rw [sequence_cons, scan_seq, List.flatMap_cons]
  show (match (Pat.opt a).scan 0 _ with | (l, .ok q) => _ | (l, r) => _) = _
  rw [Pat.scan, h.2]
  simp

theorem scanOf_opt_end {n : Nat} {s : Option Nat} (as : List Pat) :
    scanOf (.opt (.pushSize n s) :: as) [] = scanOf as [] := by
  unfold scanOf
  rw [sequence_cons, scan_seq]
  have : (Pat.opt (.pushSize n s)).construct.scan 0 (List.flatMap Instr.write []) = ([], .ok []) := rfl
  rw [this]
  simp

theorem scanOf_prog (p : Program) (as : List Pat) (q : Program) :
    scanOf (Pat.prog p :: as) (p ++ q) = scanOf as q := by
  unfold scanOf
  rw [sequence_cons, scan_seq, List.flatMap_append]
  show (match (Pat.str _).scan 0 _ with | (l, .ok q) => _ | (l, r) => _) = _
  rw [Pat.scan, if_pos (List.prefix_append _ _), List.drop_left' rfl]
  simp

theorem one_op {o : Op} (ho : 78 < o.toNat) (hf : o ≠ 0xff) : One (.op o) (op o) [] := by
  refine ⟨rfl, fun rest => ?_⟩
  rw [scan_op ho hf, op, writes_op o ho]
  simp

theorem push_isPush' {d : Bytes} (h : d.length < 2 ^ 31) : isPush (Instr.push d).op = true := by
  rw [push_eq d h]
  split
  · rfl
  · split
    · rename_i hs
      obtain ⟨b, rfl, hb⟩ := small_cases d hs
      split
      · rfl
      · rename_i h81
        rcases hb with rfl | ⟨h1, h2⟩
        · simp at h81
        · simp only [List.headD_cons]
          have key : ∀ b : UInt8, 1 ≤ b.toNat → b.toNat ≤ 16 → isPush (b + 0x50) = true :=
            forall_byte _ (by decide +kernel)
          exact key b h1 h2
    · split
      · rename_i h75
        have e : (UInt8.ofNat d.length).toNat = d.length := by simp; omega
        have : ∀ o : Op, o.toNat ≤ 75 → isPush o = true := forall_byte _ (by decide +kernel)
        exact this _ (by rw [e]; exact h75)
      · split
        · rfl
        · split <;> rfl

theorem push_data_length {d : Bytes} (h : d.length < 2 ^ 31) : (Instr.push d).data.length ≤ d.length := by
  rw [push_eq d h]
  split
  · simp
  · split
    · split <;> simp
    · split
      · simp
      · split
        · simp
        · split <;> simp

theorem scan_push_any {k : PushKind} {i : Instr} (hc : i.Carriable) (hp : isPush i.op = true)
    (hl : i.data.length + 5 < 2 ^ 32) (rest : Bytes) :
    (Pat.push k).scan 0 (i.write ++ rest) = if k.accepts i then (k.log i, .ok rest) else ([], .fail) := by
  have hf : i.op ≠ 0xff := by rintro h; rw [h] at hp; exact absurd hp (by decide)
  obtain ⟨h1, h2⟩ := readNext_write hc hf hl rest
  have hw := write_length_pos i
  rw [Pat.scan, if_neg (by rw [List.length_append]; omega), h1, if_neg (by omega), h2]
  simp only [List.drop_left' rfl]

theorem one_read {d : Bytes} (h : d.length < 2 ^ 31) (s : Nat) : One (.push (.read s)) (Instr.push d) [(s, d)] := by
  refine ⟨rfl, fun rest => ?_⟩
  have := push_data_length h
  rw [scan_push_any (push_carriable d h) (push_isPush' h) (by omega)]
  rw [if_pos (by simp [PushKind.accepts, push_isPush' h])]
  simp [PushKind.log, push_pushData d h]

theorem one_data {d : Bytes} (h : d.length < 2 ^ 31) : One (.push (.data d)) (Instr.push d) [] := by
  refine ⟨rfl, fun rest => ?_⟩
  have := push_data_length h
  rw [scan_push_any (push_carriable d h) (push_isPush' h) (by omega)]
  rw [if_pos (by simp [PushKind.accepts, push_isPush' h, push_pushData d h])]
  simp [PushKind.log]

theorem one_value {i : Instr} {v : Int} (hc : i.Carriable) (hp : isPush i.op = true)
    (hl : i.data.length + 5 < 2 ^ 32) (hv : numVal i.pushData = v) : One (.push (.value v)) i [] := by
  refine ⟨rfl, fun rest => ?_⟩
  rw [scan_push_any hc hp hl, if_pos (by simp [PushKind.accepts, hp, hv])]
  rfl

theorem not_value {i : Instr} {v : Int} (hc : i.Carriable) (hp : isPush i.op = true)
    (hl : i.data.length + 5 < 2 ^ 32) (hv : numVal i.pushData ≠ v) : Not (.push (.value v)) i := by
  refine ⟨rfl, fun rest => ?_⟩
  rw [scan_push_any hc hp hl, if_neg (by simp [PushKind.accepts, Ne.symm hv])]

theorem one_size {d : Bytes} {n : Nat} (hn : d.length = n) (h2 : 2 ≤ n) (h : n < 2 ^ 31) (s : Nat) :
    One (.pushSize n (some s)) (Instr.push d) [(s, d)] := by
  refine ⟨rfl, fun rest => (scan_pushSize h2 (by omega) s 0 _ _ _).mpr
    ⟨d, (Instr.push d).write, hn, ?_, rfl, rfl⟩⟩
  exact (pushOf_iff (by omega)).mpr ⟨_, push_carriable d (by omega), push_pushData d (by omega), rfl⟩

theorem not_size {d : Bytes} {n : Nat} (hn : d.length ≠ n) (h : d.length < 2 ^ 31) (s : Option Nat) :
    Not (.pushSize n s) (Instr.push d) := by
  refine ⟨rfl, fun rest => ?_⟩
  have := push_data_length h
  have hp := push_isPush' h
  have hf : (Instr.push d).op ≠ 0xff := by rintro h; rw [h] at hp; exact absurd hp (by decide)
  obtain ⟨h1, h2⟩ := readNext_write (push_carriable d h) hf (by omega) rest
  have hw := write_length_pos (Instr.push d)
  rw [Pat.scan, if_neg (by rw [List.length_append]; omega), h2]
  simp only
  rw [if_neg (by rw [push_pushData d h]; exact hn)]

theorem one_atom {i : Instr} (hc : i.Carriable) (hf : i.op ≠ 0xff) (hl : i.data.length + 5 < 2 ^ 32) :
    One (.atom i) i [] := by
  refine ⟨rfl, fun rest => ?_⟩
  obtain ⟨h1, h2⟩ := readNext_write hc hf hl rest
  obtain ⟨t, ht⟩ := write_head i
  rw [Pat.scan, if_neg (by rw [ht]; simp), h1, if_neg (by simp), List.take_left' rfl]
  have := readFrom_write i hc []
  rw [List.append_nil] at this
  simp [Instr.read, this, Except.map, List.drop_left' rfl]

theorem one_pubkey {d : Bytes} (h : d.length = 33 ∨ d.length = 65) (s : Nat) :
    One (pubkeyPatternTo s) (Instr.push d) [(s, d)] := by
  refine ⟨rfl, fun rest => ?_⟩
  unfold pubkeyPatternTo
  rw [sequence_cons, scan_seq]
  show (match (Pat.alternatives [_, _]).scan 0 _ with | (l, .ok q) => _ | (l, r) => _) = _
  have e : (Pat.alternatives [.pushSize 33 (some s), .pushSize 65 (some s)]).scan 0 ((Instr.push d).write ++ rest) =
      ([(s, d)], .ok rest) := by
    show (Pat.alt _ _).scan 0 _ = _
    rw [scan_alt]
    rcases h with h | h
    · rw [show (Pat.pushSize 33 (some s)).construct = .pushSize 33 (some s) from rfl,
        (one_size h (by omega) (by omega) s).2]
    · rw [show (Pat.pushSize 33 (some s)).construct = .pushSize 33 (some s) from rfl,
        (not_size (n := 33) (by omega) (by omega) (some s)).2]
      simp only
      show ([] ++ ((Pat.alt _ _).scan 0 _).1, ((Pat.alt _ _).scan 0 _).2) = _
      rw [scan_alt, show (Pat.pushSize 65 (some s)).construct = .pushSize 65 (some s) from rfl,
        (one_size h (by omega) (by omega) s).2]
      rfl
  rw [e]
  rfl

end Verif.Boost
