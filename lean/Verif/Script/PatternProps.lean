import Verif.Script.PatternLemmas
import Verif.Script.PayProps

/-
C68: standard patterns recognise the scripts made for them.  C69: matching
terminates and reports data from inside the script.  C91: a sequence matches
its parts one after another.  C92: a repetition keeps to its bounds.
-/

namespace Verif.Script

open Verif

/-! ### C69 -/

/-- Scanning any script for any pattern leaves a final part of the script, and
each captured piece is pushed by an instruction that stands somewhere in the
script (or is empty). -/
theorem C69_inside (fuel : Nat) (a : Pat) (p : Bytes) :
    (∀ r, (a.scan fuel p).2 = .ok r → ∃ used, p = used ++ r) ∧
    ∀ slot d, (slot, d) ∈ (a.scan fuel p).1 →
      ∃ (before : Bytes) (i : Instr) (after : Bytes), p = before ++ i.write ++ after ∧ i.Carriable ∧
        ((isPush i.op = true ∧ i.pushData = d) ∨ d = []) := by
  obtain ⟨h1, h2⟩ := scan_inv suffixMoves fuel a a.only_true p
  refine ⟨fun r hr => ?_, fun slot d hd => ?_⟩
  · obtain ⟨u, hu⟩ := h1 r hr
    exact ⟨u, hu.symm⟩
  · obtain ⟨q, i, r, ⟨u, hu⟩, hr, rfl⟩ := h2 _ hd
    obtain ⟨hc, hb⟩ := readFrom_ok hr
    refine ⟨u, i, r, by rw [List.append_assoc, ← hb, hu], hc, ?_⟩
    by_cases hp : isPush i.op = true
    · exact .inl ⟨hp, rfl⟩
    · refine .inr ?_
      have hnd : isPushData i.op = false := by
        revert hp
        exact forall_byte (fun o => ¬ isPush o = true → isPushData o = false) (by decide +kernel) i.op
      unfold Instr.pushData
      rw [hnd]
      by_cases h6 : i.op = 0x6a
      · rw [if_pos (.inr h6)]
        rcases hc with ⟨h, _⟩ | ⟨h, _⟩ | ⟨h, _⟩ | ⟨h, _⟩ | ⟨_, h⟩
        · rw [h6] at h; exact absurd h (by decide)
        · rw [h6] at h; exact absurd h (by decide)
        · rw [h6] at h; exact absurd h (by decide)
        · rw [h6] at h; exact absurd h (by decide)
        · exact h
      · rw [if_neg (by simp [h6]), if_pos (by simpa using hp)]

/-- A pattern of whole instructions: without `any` and without fixed byte strings. -/
def Pat.Whole (a : Pat) : Prop := a.Only fun
  | .any => False
  | .str _ => False
  | _ => True

theorem wholeMoves : Moves Boundary fun
    | .any => False
    | .str _ => False
    | _ => True where
  refl := .refl
  trans := .trans
  instr h := .step h (.refl _)
  any h := h.elim
  str _ h := h.elim

/-- For a pattern of whole instructions, what is consumed is a number of whole
instructions, and captured pieces are pushed by instructions of the script, not
by bytes in the middle of other instructions. -/
theorem C69_instructions_partial (fuel : Nat) (a : Pat) (ha : a.Whole) (p : Bytes) :
    (∀ r, (a.scan fuel p).2 = .ok r → Boundary p r) ∧
    ∀ slot d, (slot, d) ∈ (a.scan fuel p).1 → PushedAt Boundary p d := by
  obtain ⟨h1, h2⟩ := scan_inv wholeMoves fuel a ha p
  exact ⟨h1, fun slot d hd => h2 _ hd⟩

/-- Matching ends, whatever the script, for a pattern in which the body of every
repetition consumes something: one number of rounds is enough, and then the
answer does not depend on it.  Missing: other patterns, see
`C69_false_repeated_optional`. -/
theorem C69_terminates_partial (a : Pat) (ha : a.Progresses) (p : Bytes) :
    ∃ out : Log × Answer, out.2 ≠ .running ∧ ∀ fuel, p.length < fuel → a.matches fuel p = out := by
  have he := scan_ends a ha (p.length + 1) p (by omega)
  refine ⟨a.matches (p.length + 1) p, ?_, ?_⟩
  · unfold Pat.matches
    generalize a.scan (p.length + 1) p = v at he
    obtain ⟨l, w⟩ := v
    cases w with
    | running => exact absurd rfl he
    | ok r => simp only; split <;> simp
    | _ => simp
  · intro fuel hf
    obtain ⟨k, rfl⟩ : ∃ k, fuel = p.length + 1 + k := ⟨fuel - (p.length + 1), by omega⟩
    unfold Pat.matches
    rw [scan_mono _ _ _ _ he]

theorem repLoop_stuck {s : Bytes → Log × Scan} {p : Bytes} (h : s p = ([], .ok p)) (min fuel : Nat) :
    ∀ count, repLoop s min (-1) fuel count p = ([], .running) := by
  induction fuel with
  | zero => intro count; rfl
  | succ fuel ih =>
    intro count
    unfold repLoop
    rw [h]
    simp only
    rw [if_neg (by simp only [Int.ofNat_eq_natCast]; omega), ih]
    simp

/-- A repetition of something optional, such as `repeated {optional {OP_DUP}}`,
never returns once the optional part is absent: matching the empty script, or
any script that does not begin with that opcode, goes on for ever. -/
theorem C69_false_repeated_optional (p : Bytes) (hp : p.head? ≠ some 0x76) (fuel : Nat) :
    (Pat.rep 1 none .orMore (.sequence [.opt (.op 0x76)])).matches fuel p = ([], .running) := by
  have : (Pat.rep 1 none .orMore (.sequence [.opt (.op 0x76)])).scan fuel p = ([], .running) := by
    unfold Pat.scan
    refine repLoop_stuck ?_ _ _ _
    simp [Pat.sequence, Pat.construct, Pat.scan, Pat.op, hp]
  unfold Pat.matches
  rw [this]

/-- A script that ends inside a push makes matching throw where it should answer
no; nothing inside the library catches the exception. -/
theorem C69_false_throws (fuel : Nat) : addressPattern.matches fuel [0x76, 0xa9, 0x14] = ([], .thrown) := by
  simp [addressPattern, Pat.sequence, Pat.construct, Pat.matches, Pat.scan, Pat.op, nextInstructionSize, isPushData,
    Instr.read, Instr.readFrom, Except.map, readNext]

/-- A pattern for a push of no data accepts instructions that push nothing. -/
theorem C69_false_not_a_push (fuel : Nat) :
    (Pat.pushSize 0 (some 0)).matches fuel [0x76] = ([(0, [])], .yes) := by
  simp [Pat.matches, Pat.scan, nextInstructionSize, isPushData, Instr.read, Instr.readFrom, Except.map, readNext,
    Instr.pushData, isPush]

/-- A pattern of the kind meant: `{OP_DUP, push {x}, repeated {OP_DROP}}`. -/
def samplePattern : Pat := .seq (.op 0x76) (.seq (.push (.read 0)) (.seq (.rep 1 none .orMore (.op 0x75)) .null))

example : samplePattern.Progresses := by simp [samplePattern, Pat.Progresses, Pat.Consumes, Pat.op]
example : samplePattern.Whole := by simp [samplePattern, Pat.Whole, Pat.Only, Pat.op]
example : samplePattern.matches 10 [0x76, 0x02, 0x0a, 0x0b, 0x75, 0x75] = ([(0, [0x0a, 0x0b])], .yes) := by decide +kernel

/-! ### C91 -/

theorem scan_seq (fuel : Nat) (a b : Pat) (p : Bytes) : (Pat.seq a b).scan fuel p =
    match a.scan fuel p with
    | (l, .ok q) => (l ++ (b.scan fuel q).1, (b.scan fuel q).2)
    | (l, r) => (l, r) := rfl

theorem scan_alt (fuel : Nat) (a b : Pat) (p : Bytes) : (Pat.alt a b).scan fuel p =
    match a.scan fuel p with
    | (l, .fail) => (l ++ (b.scan fuel p).1, (b.scan fuel p).2)
    | (l, r) => (l, r) := rfl

/-- A sequence scans its first part and then, from where that ended, the others,
provided the first part is not itself `any`, `repeated` or `op_return_data`.
Missing: these, see `C91_false_repeated` and `C91_false_any`. -/
theorem C91_sequence_partial (fuel : Nat) (a : Pat) (l : List Pat) (p : Bytes)
    (ha : a ≠ .any ∧ (∀ b, a ≠ .opReturn b) ∧ ∀ x y z b, a ≠ .rep x y z b) :
    (∀ r, ((Pat.sequence (a :: l)).scan fuel p).2 = .ok r ↔
      ∃ q, (a.scan fuel p).2 = .ok q ∧ ((Pat.sequence l).scan fuel q).2 = .ok r) ∧
    (∀ q, (a.scan fuel p).2 = .ok q → ((Pat.sequence (a :: l)).scan fuel p).1 =
      (a.scan fuel p).1 ++ ((Pat.sequence l).scan fuel q).1) := by
  have hc : a.construct = a := by
    cases a with
    | any => exact absurd rfl ha.1
    | opReturn b => exact absurd rfl (ha.2.1 b)
    | rep x y z b => exact absurd rfl (ha.2.2 x y z b)
    | _ => rfl
  have hs : Pat.sequence (a :: l) = .seq a (Pat.sequence l) := by simp [Pat.sequence, hc]
  rw [hs, scan_seq]
  generalize a.scan fuel p = v
  obtain ⟨l', w⟩ := v
  cases w <;> simp

/-- A repetition that is part of a longer pattern is not repeated: `{repeated
{OP_DUP}, OP_CHECKSIG}` does not match two DUPs and a CHECKSIG although the
repetition alone matches two DUPs. -/
theorem C91_false_repeated (fuel : Nat) (hf : 3 ≤ fuel) :
    (Pat.rep 1 none .orMore (.op 0x76)).matches fuel [0x76, 0x76] = ([], .yes) ∧
    (Pat.sequence [.rep 1 none .orMore (.op 0x76), .op 0xac]).matches fuel [0x76, 0x76, 0xac] = ([], .no) ∧
    (Pat.sequence [.rep 1 none .orMore (.op 0x76), .op 0xac]).matches fuel [0x76, 0xac] = ([], .yes) := by
  obtain ⟨k, rfl⟩ : ∃ k, fuel = k + 1 + 1 + 1 := ⟨fuel - 3, by omega⟩
  refine ⟨?_, ?_, ?_⟩
  · simp [Pat.matches, Pat.scan, repLoop, repMin, repMax, Pat.op, nextInstructionSize, isPushData, Instr.read,
      Instr.readFrom, Except.map]
  · simp [Pat.sequence, Pat.construct, Pat.matches, Pat.scan, Pat.op, nextInstructionSize, isPushData, Instr.read,
      Instr.readFrom, Except.map]
  · simp [Pat.sequence, Pat.construct, Pat.matches, Pat.scan, Pat.op, nextInstructionSize, isPushData, Instr.read,
      Instr.readFrom, Except.map]

/-- An `any` that is part of a longer pattern matches no instruction at all. -/
theorem C91_false_any (fuel : Nat) (p : Bytes) : (Pat.sequence [.any]).scan fuel p = ([], .ok p) := by
  simp [Pat.sequence, Pat.construct, Pat.scan]

example : (Pat.sequence [.op 0x76, .op 0xac]).matches 0 [0x76, 0xac] = ([], .yes) := by decide +kernel

/-! ### C92 -/

/-- The body matches `n` times in a row, from `p` to `q`. -/
inductive Times (s : Bytes → Log × Scan) : Nat → Bytes → Bytes → Prop
  | zero (p : Bytes) : Times s 0 p p
  | succ {n : Nat} {p r q : Bytes} {l : Log} (h : s p = (l, .ok r)) (t : Times s n r q) : Times s (n + 1) p q

theorem repLoop_stops {s : Bytes → Log × Scan} {min : Nat} {max : Int} {n : Nat} {p q : Bytes} {l : Log}
    (t : Times s n p q) (hq : s q = (l, .fail)) :
    ∀ count fuel, n < fuel → count + n < 2 ^ 32 → (max < 0 ∨ (count + n : Nat) < max) →
      (repLoop s min max fuel count p).2 = if count + n < min then .fail else .ok q := by
  induction t with
  | zero p =>
    intro count fuel hf _ _
    obtain ⟨k, rfl⟩ : ∃ k, fuel = k + 1 := ⟨fuel - 1, by omega⟩
    unfold repLoop
    rw [hq]
    simp
  | @succ n p r q l' h t ih =>
    intro count fuel hf hc hm
    obtain ⟨k, rfl⟩ : ∃ k, fuel = k + 1 := ⟨fuel - 1, by omega⟩
    unfold repLoop
    rw [h]
    simp only
    rw [Nat.mod_eq_of_lt (by omega), if_neg (by simp only [Int.ofNat_eq_natCast]; omega),
      ih hq (count + 1) k (by omega) (by omega) (by omega)]
    simp only [Nat.add_right_comm, Nat.add_assoc]

theorem repLoop_reaches {s : Bytes → Log × Scan} {min : Nat} {max : Int} {n : Nat} {p q : Bytes}
    (t : Times s n p q) :
    ∀ count fuel, n ≤ fuel → 0 < n → count + n < 2 ^ 32 → ((count + n : Nat) : Int) = max →
      (repLoop s min max fuel count p).2 = .ok q := by
  induction t with
  | zero p => intro count fuel _ h; omega
  | @succ n p r q l' h t ih =>
    intro count fuel hf _ hc hm
    obtain ⟨k, rfl⟩ : ∃ k, fuel = k + 1 := ⟨fuel - 1, by omega⟩
    unfold repLoop
    rw [h]
    simp only
    rw [Nat.mod_eq_of_lt (by omega)]
    by_cases hn : n = 0
    · subst hn
      cases t
      rw [if_pos (by simp only [Int.ofNat_eq_natCast]; omega)]
    · rw [if_neg (by simp only [Int.ofNat_eq_natCast]; omega)]
      exact ih (count + 1) k (by omega) (by omega) (by omega) (by omega)

/-- The least and greatest number of matches a repetition is written with; `none`
is no limit.  `repeated {x, n}` is `n` or more. -/
def bounds (first : BitVec 32) (second : Option (BitVec 32)) (d : Directive) : Nat × Option Nat :=
  match second with
  | some m => (first.toNat, some m.toNat)
  | none =>
    match d with
    | .exactly => (first.toNat, some first.toNat)
    | .orMore => (first.toNat, none)
    | .orLess => (0, some first.toNat)

/-- A repetition whose greatest number is not zero and below `2^31` takes its
body as often as it matches in a row, but not more often than that number, and
fails if this is less often than its least number.  Missing: a greatest number
of zero, see `C92_false_zero`. -/
theorem C92_repeats_partial (first : BitVec 32) (second : Option (BitVec 32)) (d : Directive)
    (a : Pat) (fuel n : Nat) (p q : Bytes) (t : Times (a.scan fuel) n p q) (hf : n < fuel) (hn : n < 2 ^ 32)
    (hs : second = none ∨ d = .exactly)
    (hb : ∀ m, (bounds first second d).2 = some m → 0 < m ∧ m < 2 ^ 31 ∧ (bounds first second d).1 ≤ m)
    (hend : (bounds first second d).2 = some n ∨
      ((a.scan fuel q).2 = .fail ∧ ∀ m, (bounds first second d).2 = some m → n < m)) :
    ((Pat.rep first second d a).scan fuel p).2 = if n < (bounds first second d).1 then .fail else .ok q := by
  have hmin : repMin first second d = (bounds first second d).1 := by
    rcases hs with rfl | rfl
    · cases d <;> simp [repMin, bounds]
    · cases second <;> simp [repMin, bounds]
  have hmax : repMax first second d = match (bounds first second d).2 with | some m => (m : Int) | none => -1 := by
    cases second with
    | none => cases d <;> simp [repMax, bounds]
    | some m =>
      have h31 := (hb m.toNat (by simp [bounds])).2.1
      have hne : m ≠ BitVec.ofNat 32 (2 ^ 32 - 1) := by
        intro h; rw [h] at h31; revert h31; decide
      simp only [repMax, if_neg hne, bounds]
      rw [BitVec.toInt_eq_toNat_cond, if_pos (by omega)]
  unfold Pat.scan
  rw [hmin, hmax]
  rcases hend with he | ⟨hq, hlt⟩
  · obtain ⟨h0, h31, hle⟩ := hb n he
    rw [he, repLoop_reaches t 0 fuel (by omega) h0 (by omega) (by simp), if_neg (by omega)]
  · generalize hv : a.scan fuel q = v at hq
    obtain ⟨l, w⟩ := v
    simp only at hq
    subst hq
    rw [repLoop_stops t hv 0 fuel hf (by omega)]
    · simp
    · cases hm : (bounds first second d).2 with
      | none => exact .inl (by decide)
      | some m => exact .inr (by have := hlt m hm; simp only; omega)

/-- `repeated {x, 0, exactly}` and `repeated {x, 0, or_less}` take as many as there are. -/
theorem C92_false_zero (fuel : Nat) (hf : 3 ≤ fuel) (d : Directive) (hd : d = .exactly ∨ d = .orLess) :
    (bounds 0 none d).2 = some 0 ∧
    (Pat.rep 0 none d (.op 0x76)).matches fuel [0x76, 0x76] = ([], .yes) := by
  obtain ⟨k, rfl⟩ : ∃ k, fuel = k + 1 + 1 + 1 := ⟨fuel - 3, by omega⟩
  rcases hd with rfl | rfl
  all_goals
    simp [Pat.matches, Pat.scan, repLoop, repMin, repMax, Pat.op, nextInstructionSize, isPushData, Instr.read,
      Instr.readFrom, Except.map, bounds]

example : ((Pat.rep 1 (some 2) .exactly (.op 0x76)).scan 5 [0x76, 0x76, 0x76]).2 = .ok [0x76] := by decide +kernel
example : ((Pat.rep 2 none .orMore (.op 0x76)).scan 5 [0x76, 0xac]).2 = .fail := by decide +kernel

/-! ### C68 -/

/-- The ways in which a script can push `d`, of at least two bytes, with one
instruction. -/
def PushOf (d b : Bytes) : Prop :=
  (d.length ≤ 75 ∧ b = UInt8.ofNat d.length :: d) ∨
  (d.length < 2 ^ 8 ∧ b = 0x4c :: (leBytes 1 d.length ++ d)) ∨
  (d.length < 2 ^ 16 ∧ b = 0x4d :: (leBytes 2 d.length ++ d)) ∨
  (d.length < 2 ^ 32 ∧ b = 0x4e :: (leBytes 4 d.length ++ d))

theorem pushOf_iff {d b : Bytes} (hd : 2 ≤ d.length) :
    PushOf d b ↔ ∃ i : Instr, i.Carriable ∧ i.pushData = d ∧ b = i.write := by
  constructor
  · rintro (⟨h1, rfl⟩ | ⟨h1, rfl⟩ | ⟨h1, rfl⟩ | ⟨h1, rfl⟩)
    · have e : (UInt8.ofNat d.length).toNat = d.length := by simp; omega
      have hp : isPushData (UInt8.ofNat d.length) = true := (isPushData_iff _).mpr (by rw [e]; omega)
      have hp' : UInt8.ofNat d.length ≤ 0x4b := (le75_iff _).mpr (by rw [e]; omega)
      refine ⟨⟨UInt8.ofNat d.length, d⟩, .inl ⟨by simp only [e]; omega, e.symm⟩, by simp [Instr.pushData, hp], ?_⟩
      simp [Instr.write, hp, hp']
    · exact ⟨⟨0x4c, d⟩, .inr (.inl ⟨rfl, h1⟩), rfl, by simp [Instr.write, isPushData]⟩
    · exact ⟨⟨0x4d, d⟩, .inr (.inr (.inl ⟨rfl, h1⟩)), rfl, by simp [Instr.write, isPushData]⟩
    · exact ⟨⟨0x4e, d⟩, .inr (.inr (.inr (.inl ⟨rfl, h1⟩))), rfl, by simp [Instr.write, isPushData]⟩
  · rintro ⟨⟨o, e⟩, hc, rfl, rfl⟩
    rcases hc with ⟨h1, h2⟩ | ⟨h1, h2⟩ | ⟨h1, h2⟩ | ⟨h1, h2⟩ | ⟨h1, h2⟩ <;> simp only at h1 h2
    · have hp : isPushData o = true := (isPushData_iff o).mpr (by omega)
      have hp' : o ≤ 0x4b := (le75_iff o).mpr h1
      refine .inl ⟨by simp [Instr.pushData, hp]; omega, ?_⟩
      simp [Instr.pushData, Instr.write, hp, hp', h2]
    · subst h1
      exact .inr (.inl ⟨h2, by simp [Instr.write, Instr.pushData, isPushData]⟩)
    · subst h1
      exact .inr (.inr (.inl ⟨h2, by simp [Instr.write, Instr.pushData, isPushData]⟩))
    · subst h1
      exact .inr (.inr (.inr ⟨h2, by simp [Instr.write, Instr.pushData, isPushData]⟩))
    · subst h2
      exfalso
      revert hd
      unfold Instr.pushData
      split
      · simp
      · split
        · simp
        · split <;> simp

theorem scan_op {o : Op} (ho : 78 < o.toNat) (hf : o ≠ 0xff) (fuel : Nat) (p : Bytes) :
    (Pat.op o).scan fuel p =
      match p with
      | [] => ([], .fail)
      | x :: r => if x = o then ([], .ok r) else ([], .fail) := by
  have hp : isPushData o = false := (isPushData_false_iff o).mpr ho
  cases p with
  | nil => simp [Pat.op, Pat.scan]
  | cons x r =>
    by_cases hx : x = o
    · subst hx
      simp [Pat.op, Pat.scan, nextInstructionSize, hp, hf, Instr.read, Instr.readFrom, Except.map]
    · simp [Pat.op, Pat.scan, hx]

theorem scan_pushSize {n : Nat} (hn : 2 ≤ n) (hn' : n < 2 ^ 32 - 5) (slot fuel : Nat) (p r : Bytes) (l : Log) :
    (Pat.pushSize n (some slot)).scan fuel p = (l, .ok r) ↔
      ∃ d b, d.length = n ∧ PushOf d b ∧ p = b ++ r ∧ l = [(slot, d)] := by
  constructor
  · intro h
    unfold Pat.scan at h
    split at h
    · simp at h
    · split at h
      · simp at h
      · rename_i i hi
        obtain ⟨hr, -⟩ := readNext_some hi
        split at h
        · rename_i hd
          simp only [Option.toList_some, List.map_cons, List.map_nil, Prod.mk.injEq, Scan.ok.injEq] at h
          obtain ⟨rfl, rfl⟩ := h
          obtain ⟨hc, hb⟩ := readFrom_ok hr
          exact ⟨i.pushData, i.write, hd, (pushOf_iff (by omega)).mpr ⟨i, hc, rfl, rfl⟩, hb, rfl⟩
        · simp at h
  · rintro ⟨d, b, hd, hb, rfl, rfl⟩
    obtain ⟨i, hc, rfl, rfl⟩ := (pushOf_iff (by omega)).mp hb
    have hff : i.op ≠ 0xff := by
      intro h
      rw [show i.pushData = [] by simp [Instr.pushData, h, isPushData, isPush]] at hd
      simp at hd; omega
    have hlen : i.data.length + 5 < 2 ^ 32 := by
      rcases hc with ⟨h, h2⟩ | ⟨h, h2⟩ | ⟨h, h2⟩ | ⟨h, h2⟩ | ⟨h, h2⟩
      · omega
      · omega
      · omega
      · rw [show i.pushData = i.data by simp [Instr.pushData, h, isPushData]] at hd; omega
      · rw [h2]; simp
    obtain ⟨h1, h2⟩ := readNext_write hc hff hlen r
    have hw := write_length_pos i
    unfold Pat.scan
    rw [if_neg (by rw [List.length_append]; omega), h2, h1]
    simp [hd, List.drop_left' rfl]

theorem seq_ok {fuel : Nat} {a b : Pat} {p r : Bytes} {l : Log} :
    (Pat.seq a b).scan fuel p = (l, .ok r) ↔
      ∃ l1 q l2, a.scan fuel p = (l1, .ok q) ∧ b.scan fuel q = (l2, .ok r) ∧ l = l1 ++ l2 := by
  rw [scan_seq]
  generalize a.scan fuel p = v
  obtain ⟨l', w⟩ := v
  cases w with
  | ok q =>
    simp only
    constructor
    · intro h
      generalize hv : b.scan fuel q = v at h
      obtain ⟨l2, w⟩ := v
      simp only [Prod.mk.injEq] at h
      obtain ⟨rfl, rfl⟩ := h
      exact ⟨l', q, l2, rfl, hv, rfl⟩
    · rintro ⟨l1, q', l2, h1, h2, rfl⟩
      simp only [Prod.mk.injEq, Scan.ok.injEq] at h1
      obtain ⟨rfl, rfl⟩ := h1
      rw [h2]
  | _ => simp

theorem op_ok {o : Op} (ho : 78 < o.toNat) (hf : o ≠ 0xff) {fuel : Nat} {p r : Bytes} {l : Log} :
    (Pat.op o).scan fuel p = (l, .ok r) ↔ l = [] ∧ p = o :: r := by
  rw [scan_op ho hf]
  cases p with
  | nil => simp
  | cons x t =>
    simp only
    split
    · rename_i h; subst h; simp [eq_comm]
    · rename_i h; simp [h]

theorem null_ok {fuel : Nat} {p r : Bytes} {l : Log} : Pat.null.scan fuel p = (l, .ok r) ↔ l = [] ∧ p = r := by
  simp [Pat.scan, eq_comm]

theorem alt_ok {fuel : Nat} {a b : Pat} {p r : Bytes} {l : Log} :
    (Pat.alt a b).scan fuel p = (l, .ok r) ↔
      a.scan fuel p = (l, .ok r) ∨
        ∃ l1 l2, a.scan fuel p = (l1, .fail) ∧ b.scan fuel p = (l2, .ok r) ∧ l = l1 ++ l2 := by
  rw [scan_alt]
  generalize a.scan fuel p = v
  obtain ⟨l', w⟩ := v
  cases w with
  | fail =>
    simp only [Prod.mk.injEq, reduceCtorEq, and_false, false_or, and_true]
    constructor
    · intro h
      generalize hv : b.scan fuel p = v at h
      obtain ⟨l2, w⟩ := v
      simp only at h
      obtain ⟨rfl, rfl⟩ := h
      exact ⟨l', l2, rfl, rfl, rfl⟩
    · rintro ⟨l1, l2, rfl, h2, rfl⟩
      rw [h2]
      exact ⟨rfl, rfl⟩
  | _ => simp

theorem recognise_found {a : Pat} {s d : Bytes} :
    recognise a s = .found d ↔ ∃ l, a.scan 0 s = (l, .ok []) ∧ l.value 0 [] = d := by
  unfold recognise Pat.matches
  generalize a.scan 0 s = v
  obtain ⟨l, w⟩ := v
  cases w with
  | ok r =>
    cases r with
    | nil => simp
    | cons x t => simp
  | _ => simp

/-- Exactly the scripts recognised as payments to an address: the five
instructions, with the digest pushed in any way. -/
theorem C68_address_exact (s h : Bytes) :
    recognise addressPattern s = .found h ↔
      h.length = 20 ∧ ∃ b, PushOf h b ∧ s = [0x76, 0xa9] ++ b ++ [0x88, 0xac] := by
  rw [recognise_found]
  simp only [addressPattern, Pat.sequence, List.foldr_cons, List.foldr_nil, Pat.construct, Pat.op]
  simp only [← Pat.op.eq_def, seq_ok, null_ok, op_ok (o := 0x76) (by decide) (by decide),
    op_ok (o := 0xa9) (by decide) (by decide), op_ok (o := 0x88) (by decide) (by decide),
    op_ok (o := 0xac) (by decide) (by decide), scan_pushSize (n := 20) (by decide) (by decide)]
  constructor
  · rintro ⟨l, ⟨_, _, _, ⟨rfl, rfl⟩, ⟨_, _, _, ⟨rfl, rfl⟩, ⟨_, _, _, ⟨d, b, hd, hb, rfl, rfl⟩,
      ⟨_, _, _, ⟨rfl, rfl⟩, ⟨_, _, _, ⟨rfl, rfl⟩, ⟨rfl, rfl⟩, rfl⟩, rfl⟩, rfl⟩, rfl⟩, rfl⟩, rfl⟩
    refine ⟨by simpa [Log.value] using hd, b, by simpa [Log.value] using hb, by simp⟩
  · rintro ⟨hl, b, hb, rfl⟩
    exact ⟨[(0, h)], ⟨[], _, [(0, h)], ⟨rfl, rfl⟩, ⟨[], _, [(0, h)], ⟨rfl, rfl⟩, ⟨[(0, h)], [0x88, 0xac], [],
      ⟨h, b, hl, hb, rfl, rfl⟩, ⟨[], [0xac], [], ⟨rfl, rfl⟩, ⟨[], [], [], ⟨rfl, rfl⟩, ⟨rfl, rfl⟩, rfl⟩, rfl⟩,
      rfl⟩, rfl⟩, rfl⟩, by simp [Log.value]⟩

/-- Exactly the scripts recognised as payments to a script hash. -/
theorem C68_script_hash_exact (s h : Bytes) :
    recognise scriptHashPattern s = .found h ↔
      h.length = 20 ∧ ∃ b, PushOf h b ∧ s = [0xa9] ++ b ++ [0x87] := by
  rw [recognise_found]
  simp only [scriptHashPattern, Pat.sequence, List.foldr_cons, List.foldr_nil, Pat.construct, Pat.op]
  simp only [← Pat.op.eq_def, seq_ok, null_ok, op_ok (o := 0xa9) (by decide) (by decide),
    op_ok (o := 0x87) (by decide) (by decide), scan_pushSize (n := 20) (by decide) (by decide)]
  constructor
  · rintro ⟨l, ⟨_, _, _, ⟨rfl, rfl⟩, ⟨_, _, _, ⟨d, b, hd, hb, rfl, rfl⟩,
      ⟨_, _, _, ⟨rfl, rfl⟩, ⟨rfl, rfl⟩, rfl⟩, rfl⟩, rfl⟩, rfl⟩
    refine ⟨by simpa [Log.value] using hd, b, by simpa [Log.value] using hb, by simp⟩
  · rintro ⟨hl, b, hb, rfl⟩
    exact ⟨[(0, h)], ⟨[], _, [(0, h)], ⟨rfl, rfl⟩, ⟨[(0, h)], [0x87], [],
      ⟨h, b, hl, hb, rfl, rfl⟩, ⟨[], [], [], ⟨rfl, rfl⟩, ⟨rfl, rfl⟩, rfl⟩, rfl⟩, rfl⟩, by simp [Log.value]⟩

theorem scan_pushSize_fail {n : Nat} {d b : Bytes} (hd : 2 ≤ d.length) (hd' : d.length < 2 ^ 32 - 5)
    (hne : d.length ≠ n) (hb : PushOf d b) (slot fuel : Nat) (r : Bytes) :
    (Pat.pushSize n (some slot)).scan fuel (b ++ r) = ([], .fail) := by
  have h := (scan_pushSize hd hd' slot fuel (b ++ r) r [(slot, d)]).mpr ⟨d, b, rfl, hb, rfl, rfl⟩
  unfold Pat.scan at h ⊢
  split at h
  · simp at h
  · rename_i h0
    rw [if_neg h0]
    split at h
    · simp at h
    · rename_i i hi
      split at h
      · rename_i hl
        rw [if_neg (by rw [hl]; exact hne)]
      · simp at h

theorem pushSize_fail_log {n fuel : Nat} {slot : Option Nat} {p : Bytes} {l : Log}
    (h : (Pat.pushSize n slot).scan fuel p = (l, .fail)) : l = [] := by
  unfold Pat.scan at h
  split at h
  · simpa using h.symm
  · split at h
    · simp at h
    · split at h
      · simp at h
      · simpa using h.symm

theorem never_ok {fuel : Nat} {p r : Bytes} {l : Log} : ¬ Pat.never.scan fuel p = (l, .ok r) := by
  simp [Pat.scan]

theorem pubkeyPattern_ok (fuel : Nat) (p r : Bytes) (l : Log) :
    pubkeyPattern.scan fuel p = (l, .ok r) ↔
      ∃ d b, (d.length = 33 ∨ d.length = 65) ∧ PushOf d b ∧ p = b ++ r ∧ l = [(0, d)] := by
  simp only [pubkeyPattern, Pat.sequence, Pat.alternatives, List.foldr_cons, List.foldr_nil, Pat.construct]
  simp only [seq_ok, null_ok, alt_ok, scan_pushSize (n := 33) (by decide) (by decide),
    scan_pushSize (n := 65) (by decide) (by decide)]
  constructor
  · rintro ⟨l1, q, l2, h | ⟨l3, l4, h3, h | ⟨l5, l6, h5, h6, h7⟩, rfl⟩, ⟨rfl, rfl⟩, rfl⟩
    · obtain ⟨d, b, hd, hb, hp, rfl⟩ := h
      exact ⟨d, b, .inl hd, hb, hp, by simp⟩
    · obtain ⟨d, b, hd, hb, hp, rfl⟩ := h
      rw [pushSize_fail_log h3]
      exact ⟨d, b, .inr hd, hb, hp, by simp⟩
    · exact absurd h6 never_ok
  · rintro ⟨d, b, hd | hd, hb, rfl, rfl⟩
    · exact ⟨[(0, d)], r, [], .inl ⟨d, b, hd, hb, rfl, rfl⟩, ⟨rfl, rfl⟩, rfl⟩
    · exact ⟨[(0, d)], r, [], .inr ⟨[], [(0, d)],
        scan_pushSize_fail (by omega) (by omega) (by omega) hb 0 fuel r,
        .inl ⟨d, b, hd, hb, rfl, rfl⟩, rfl⟩, ⟨rfl, rfl⟩, rfl⟩

/-- Exactly the scripts recognised as payments to a public key. -/
theorem C68_pubkey_exact (s k : Bytes) :
    recognise payPubkeyPattern s = .found k ↔
      (k.length = 33 ∨ k.length = 65) ∧ ∃ b, PushOf k b ∧ s = b ++ [0xac] := by
  rw [recognise_found]
  have hc : pubkeyPattern.construct = pubkeyPattern := rfl
  simp only [payPubkeyPattern, Pat.sequence, List.foldr_cons, List.foldr_nil, hc]
  have ho : (Pat.op 0xac).construct = Pat.op 0xac := rfl
  simp only [ho, seq_ok, null_ok, op_ok (o := 0xac) (by decide) (by decide), pubkeyPattern_ok]
  constructor
  · rintro ⟨l, ⟨_, _, _, ⟨d, b, hd, hb, rfl, rfl⟩, ⟨_, _, _, ⟨rfl, rfl⟩, ⟨rfl, rfl⟩, rfl⟩, rfl⟩, rfl⟩
    exact ⟨by simpa [Log.value] using hd, b, by simpa [Log.value] using hb, by simp⟩
  · rintro ⟨hl, b, hb, rfl⟩
    exact ⟨[(0, k)], ⟨[(0, k)], [0xac], [], ⟨k, b, hl, hb, rfl, rfl⟩, ⟨[], [], [], ⟨rfl, rfl⟩, ⟨rfl, rfl⟩, rfl⟩, rfl⟩,
      by simp [Log.value]⟩

theorem pushOf_push {d : Bytes} (hd' : d.length ≤ 75) :
    PushOf d (UInt8.ofNat d.length :: d) := .inl ⟨hd', rfl⟩

theorem write_push {d : Bytes} (hd : 2 ≤ d.length) (hd' : d.length ≤ 75) :
    (Instr.push d).write = UInt8.ofNat d.length :: d ∧ (Instr.push d).serializedSize = d.length + 1 := by
  have e : (UInt8.ofNat d.length).toNat = d.length := by simp; omega
  have hp : isPushData (UInt8.ofNat d.length) = true := (isPushData_iff _).mpr (by rw [e]; omega)
  have hp' : UInt8.ofNat d.length ≤ 0x4b := (le75_iff _).mpr (by rw [e]; omega)
  have hw : (Instr.push d).write = UInt8.ofNat d.length :: d := by
    rw [push_short hd hd']; simp [Instr.write, hp, hp']
  refine ⟨hw, ?_⟩
  rw [serializedSize_eq _ (push_carriable d (by omega)) (by rw [push_short hd hd']; simp only; omega), hw]
  simp

theorem bare {o : Op} (ho : 78 < o.toNat) :
    (Instr.mk o []).write = [o] ∧ (Instr.mk o []).serializedSize = 1 := by
  have hp : isPushData o = false := (isPushData_false_iff o).mpr ho
  simp [Instr.write, Instr.serializedSize, hp]

/-- The scripts the library makes for 20-byte digests and for public keys. -/
theorem made {h k : Bytes} (hh : h.length = 20) (hk : k.length = 33 ∨ k.length = 65) :
    compile (payToAddress h) = .ok ([0x76, 0xa9] ++ (UInt8.ofNat h.length :: h) ++ [0x88, 0xac]) ∧
    compile (payToScriptHash h) = .ok ([0xa9] ++ (UInt8.ofNat h.length :: h) ++ [0x87]) ∧
    compile (payToPubkey k) = .ok ((UInt8.ofNat k.length :: k) ++ [0xac]) := by
  obtain ⟨w1, s1⟩ := write_push (d := h) (by omega) (by omega)
  obtain ⟨w2, s2⟩ := write_push (d := k) (by omega) (by omega)
  have fill : ∀ (n : Nat) (w : Bytes), n = w.length → fillBuffer n w = .ok w := by
    rintro _ w rfl
    exact fillBuffer_exact w
  refine ⟨?_, ?_, ?_⟩
  · have : (payToAddress h).flatMap Instr.write = [0x76, 0xa9] ++ (UInt8.ofNat h.length :: h) ++ [0x88, 0xac] := by
      simp [payToAddress, w1, (bare (o := 0x76) (by decide)).1, (bare (o := 0xa9) (by decide)).1,
        (bare (o := 0x88) (by decide)).1, (bare (o := 0xac) (by decide)).1]
    unfold compile
    rw [this, fill]
    simp [payToAddress, programSize, s1, (bare (o := 0x76) (by decide)).2, (bare (o := 0xa9) (by decide)).2,
      (bare (o := 0x88) (by decide)).2, (bare (o := 0xac) (by decide)).2]
    omega
  · have : (payToScriptHash h).flatMap Instr.write = [0xa9] ++ (UInt8.ofNat h.length :: h) ++ [0x87] := by
      simp [payToScriptHash, w1, (bare (o := 0xa9) (by decide)).1, (bare (o := 0x87) (by decide)).1]
    unfold compile
    rw [this, fill]
    simp [payToScriptHash, programSize, s1, (bare (o := 0xa9) (by decide)).2,
      (bare (o := 0x87) (by decide)).2]
    omega
  · have : (payToPubkey k).flatMap Instr.write = (UInt8.ofNat k.length :: k) ++ [0xac] := by
      simp [payToPubkey, w2, (bare (o := 0xac) (by decide)).1]
    unfold compile
    rw [this, fill]
    simp [payToPubkey, programSize, s2, (bare (o := 0xac) (by decide)).2]

/-- The script made for an address, a script hash or a public key is recognised
and gives back the digest or key. -/
theorem C68_made_recognised {h k : Bytes} (hh : h.length = 20) (hk : k.length = 33 ∨ k.length = 65) :
    (∃ s, compile (payToAddress h) = .ok s ∧ recognise addressPattern s = .found h) ∧
    (∃ s, compile (payToScriptHash h) = .ok s ∧ recognise scriptHashPattern s = .found h) ∧
    (∃ s, compile (payToPubkey k) = .ok s ∧ recognise payPubkeyPattern s = .found k) := by
  obtain ⟨m1, m2, m3⟩ := made hh hk
  exact ⟨⟨_, m1, (C68_address_exact _ _).mpr ⟨hh, _, pushOf_push (by omega), rfl⟩⟩,
    ⟨_, m2, (C68_script_hash_exact _ _).mpr ⟨hh, _, pushOf_push (by omega), rfl⟩⟩,
    ⟨_, m3, (C68_pubkey_exact _ _).mpr ⟨hk, _, pushOf_push (by omega), rfl⟩⟩⟩

/-- A push that takes only one byte more than the data. -/
theorem pushOf_shortest {d b : Bytes} (h : PushOf d b) (hl : b.length = d.length + 1) :
    b = UInt8.ofNat d.length :: d := by
  rcases h with ⟨_, rfl⟩ | ⟨_, rfl⟩ | ⟨_, rfl⟩ | ⟨_, rfl⟩
  · rfl
  all_goals
    simp only [List.length_cons, List.length_append, leBytes_length] at hl
    omega

/-- A recognised script of the length of the script made from the returned value
is that script, byte for byte.  Missing: longer scripts that push the value
in a roundabout way are recognised too, see `C68_false_not_minimal`. -/
theorem C68_recognised_is_made_partial (s d : Bytes) :
    (recognise addressPattern s = .found d → s.length ≤ 25 → compile (payToAddress d) = .ok s) ∧
    (recognise scriptHashPattern s = .found d → s.length ≤ 23 → compile (payToScriptHash d) = .ok s) ∧
    (recognise payPubkeyPattern s = .found d → s.length ≤ d.length + 2 → compile (payToPubkey d) = .ok s) := by
  have long : ∀ {d b}, PushOf d b → d.length + 1 ≤ b.length := by
    intro d b h
    rcases h with ⟨_, rfl⟩ | ⟨_, rfl⟩ | ⟨_, rfl⟩ | ⟨_, rfl⟩ <;>
      simp only [List.length_cons, List.length_append, leBytes_length] <;> omega
  refine ⟨fun hr hl => ?_, fun hr hl => ?_, fun hr hl => ?_⟩
  · obtain ⟨hd, b, hb, rfl⟩ := (C68_address_exact _ _).mp hr
    have := long hb
    simp only [List.length_cons, List.length_append, List.length_nil] at hl
    rw [(made hd (k := List.replicate 33 0) (.inl rfl)).1, pushOf_shortest hb (by omega)]
  · obtain ⟨hd, b, hb, rfl⟩ := (C68_script_hash_exact _ _).mp hr
    have := long hb
    simp only [List.length_cons, List.length_append, List.length_nil] at hl
    rw [(made hd (k := List.replicate 33 0) (.inl rfl)).2.1, pushOf_shortest hb (by omega)]
  · obtain ⟨hd, b, hb, rfl⟩ := (C68_pubkey_exact _ _).mp hr
    have := long hb
    simp only [List.length_cons, List.length_append, List.length_nil] at hl
    rw [(made (h := List.replicate 20 0) rfl hd).2.2, pushOf_shortest hb (by omega)]

/-- For every digest there are recognised scripts that are not the script made
for it: the digest can be pushed with PUSHDATA1. -/
theorem C68_false_not_minimal (h : Bytes) (hh : h.length = 20) :
    recognise addressPattern ([0x76, 0xa9, 0x4c, 0x14] ++ h ++ [0x88, 0xac]) = .found h ∧
    compile (payToAddress h) ≠ .ok ([0x76, 0xa9, 0x4c, 0x14] ++ h ++ [0x88, 0xac]) := by
  constructor
  · refine (C68_address_exact _ _).mpr ⟨hh, 0x4c :: (leBytes 1 h.length ++ h), .inr (.inl ⟨by omega, rfl⟩), ?_⟩
    rw [hh]
    rfl
  · rw [(made hh (k := List.replicate 33 0) (.inl rfl)).1]
    intro hc
    have := congrArg List.length (Except.ok.inj hc)
    simp [hh] at this

/-- Asking whether a script pays to an address throws when the script ends
inside a push. -/
theorem C68_false_throws : recognise addressPattern [0x76, 0xa9, 0x14] = .thrown := by
  unfold recognise
  rw [C69_false_throws]

example : recognise addressPattern ([0x76, 0xa9, 0x14] ++ List.replicate 20 7 ++ [0x88, 0xac]) =
    .found (List.replicate 20 7) := by decide +kernel
example : recognise addressPattern [0x76, 0xa9, 0x14] = .thrown := by decide +kernel
example : recognise payPubkeyPattern ([0x21] ++ List.replicate 33 2 ++ [0xac]) = .found (List.replicate 33 2) := by
  decide +kernel

end Verif.Script
