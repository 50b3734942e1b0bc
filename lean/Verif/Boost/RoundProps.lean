import Verif.Boost.PatLemmas

/-
C49: Boost scripts are read back as they were written.
-/

namespace Verif.Boost

open Verif Script Work

theorem wfix_length (k : Nat) (x : BitVec w) : (wfix k x).length = k := by simp [wfix]

theorem scanOf_op {o : Op} (ho : 78 < o.toNat) (hf : o ≠ 0xff) (as : List Pat) (q : Program) :
    scanOf (.op o :: as) (op o :: q) = scanOf as q := by
  rw [scanOf_cons (one_op ho hf)]
  simp

theorem op_value {o : Op} {v : Int} (ho : 78 < o.toNat) (hp : isPush o = true) (hv : numVal (op o).pushData = v) :
    One (.push (.value v)) (op o) [] := one_value (op_carriable o ho) hp (by decide : (0 : Nat) + 5 < 2 ^ 32) hv

theorem scanOf_value {o : Op} {v : Int} (ho : 78 < o.toNat) (hp : isPush o = true)
    (hv : numVal (op o).pushData = v) (as : List Pat) (q : Program) :
    scanOf (.push (.value v) :: as) (op o :: q) = scanOf as q := by
  rw [scanOf_cons (op_value ho hp hv)]
  simp

theorem scanOf_not_value {o : Op} {v : Int} (ho : 78 < o.toNat) (hp : isPush o = true)
    (hv : numVal (op o).pushData ≠ v) (as : List Pat) (q : Program) :
    scanOf (.push (.value v) :: as) (op o :: q) = ([], .fail) :=
  scanOf_not (not_value (op_carriable o ho) hp (by decide : (0 : Nat) + 5 < 2 ^ 32) hv) as q

theorem scanOf_32 (as : List Pat) (q : Program) :
    scanOf (.push (.value 32) :: as) (pushInt 32 :: q) = scanOf as q := by
  rw [scanOf_cons (one_value (by decide +kernel) (by decide +kernel) (by decide +kernel) (by decide +kernel))]
  simp

theorem scanOf_mask (as : List Pat) (q : Program) :
    scanOf (.atom (Instr.push (wfix 4 boostMask)) :: as) (Instr.push (wfix 4 boostMask) :: q) = scanOf as q := by
  rw [scanOf_cons (one_atom (push_carriable _ (by decide)) (by decide +kernel) (by decide +kernel))]
  simp

/-- The end of both programs. -/
def opsTail : Program :=
  [op 0x7c, op 0x82, op 0x54, op 0x88, op 0x7e,
   op 0x6c, op 0x7e,
   op 0x7c, op 0x82, op 0x54, op 0x88, op 0x7e,
   op 0xaa] ++ (ensurePositive ++
  ([op 0x6c] ++ (expandTarget ++ (ensurePositive ++
  [op 0x9f, op 0x69,
   op 0x76, op 0xa9, op 0x6c, op 0x88, op 0xac]))))

theorem scan_tail : scanOf patTail opsTail = ([], .ok []) := by
  unfold patTail opsTail
  simp (discharger := decide +kernel) only [List.cons_append, List.nil_append, scanOf_op, scanOf_value, scanOf_prog,
    scanOf_nil]

/-- The operations common to the beginning of both programs. -/
def opsHead : Program :=
  [op 0x7e, op 0x7c, op 0x55, op 0x7a, op 0x76, op 0x6b, op 0x7e, op 0x52, op 0x79, op 0x6b]

def opsBits' : Program :=
  [op 0x56, op 0x7a, op 0x82, op 0x54, op 0x88, op 0x7e,
   op 0x56, op 0x7a, op 0x82, pushInt 32, op 0xa1, op 0x69, op 0x7e,
   op 0x7c, op 0x7e, op 0xaa,
   op 0x7c, op 0x6b, op 0x7e, op 0x6b,
   Instr.push (wfix 4 boostMask), op 0x76, op 0x83, op 0x6b, op 0x84,
   op 0x7c, op 0x6c, op 0x84, op 0x85,
   op 0x6c, op 0x7e] ++ opsTail

def opsPlain' : Program :=
  [op 0x55, op 0x7a, op 0x82, op 0x54, op 0x88, op 0x7e,
   op 0x55, op 0x7a, op 0x82, op 0x58, op 0x88, op 0x7e,
   op 0x7c, op 0x7e, op 0xaa,
   op 0x7c, op 0x6b, op 0x7e, op 0x7e] ++ opsTail

theorem opsBits_eq : opsBits = opsHead ++ opsBits' := by
  simp [opsBits, opsHead, opsBits', opsTail]

theorem opsPlain_eq : opsPlain = opsHead ++ opsPlain' := by
  simp [opsPlain, opsHead, opsPlain', opsTail]

/-- What follows the first parts in the two patterns. -/
def patBits' : List Pat :=
   [.push (.value 6), .op 0x7a, .op 0x82, .push (.value 4), .op 0x88, .op 0x7e,
    .push (.value 6), .op 0x7a, .op 0x82, .push (.value 32), .op 0xa1, .op 0x69, .op 0x7e,
    .op 0x7c, .op 0x7e, .op 0xaa,
    .op 0x7c, .op 0x6b, .op 0x7e, .op 0x6b,
    .atom (Instr.push (wfix 4 boostMask)), .op 0x76, .op 0x83, .op 0x6b, .op 0x84,
    .op 0x7c, .op 0x6c, .op 0x84, .op 0x85,
    .op 0x6c, .op 0x7e] ++ patTail

def patPlain' : List Pat :=
   [.push (.value 5), .op 0x7a, .op 0x82, .push (.value 4), .op 0x88, .op 0x7e,
    .push (.value 5), .op 0x7a, .op 0x82, .push (.value 8), .op 0x88, .op 0x7e,
    .op 0x7c, .op 0x7e, .op 0xaa,
    .op 0x7c, .op 0x6b, .op 0x7e, .op 0x7e] ++ patTail

theorem scan_bits : scanOf patBits' opsBits' = ([], .ok []) := by
  unfold patBits' opsBits'
  simp (discharger := decide +kernel) only [List.cons_append, List.nil_append, scanOf_op, scanOf_value,
    scanOf_32, scanOf_mask, scan_tail]

theorem scan_plain : scanOf patPlain' opsPlain' = ([], .ok []) := by
  unfold patPlain' opsPlain'
  simp (discharger := decide +kernel) only [List.cons_append, List.nil_append, scanOf_op, scanOf_value,
    scan_tail]

theorem scan_bits_plain : scanOf patBits' opsPlain' = ([], .fail) := by
  unfold patBits' opsPlain'
  simp (discharger := decide +kernel) only [List.cons_append, List.nil_append, scanOf_not_value]

/-- What the variables hold. -/
def Output.log (o : Output) : Log :=
  (if o.kind = .contract then [(0, wfix 20 o.hash)] else []) ++
  [(1, wfix 4 o.category), (2, wfix 32 o.content), (3, wfix 4 o.target), (4, o.tag), (5, wfix 4 o.userNonce),
   (6, o.data)]

theorem scan_head (o : Output) (hk : o.kind ≠ .invalid) (ht : o.tag.length < 2 ^ 31) (hd : o.data.length < 2 ^ 31)
    (as : List Pat) (q : Program) (hq : (if o.useBits then opsBits else opsPlain) = opsHead ++ q) :
    scanOf (patHead ++ as) o.program = (o.log ++ (scanOf as q).1, (scanOf as q).2) := by
  unfold Output.program
  rw [if_neg hk, hq]
  have h6 : ∀ r, scanOf ([.pushSize 4 (some 1), .pushSize 32 (some 2), .pushSize 4 (some 3),
       .push (.read 4), .pushSize 4 (some 5), .push (.read 6)] ++ r)
      ([Instr.push (wfix 4 o.category), Instr.push (wfix 32 o.content), Instr.push (wfix 4 o.target),
        Instr.push o.tag, Instr.push (wfix 4 o.userNonce), Instr.push o.data] ++ (opsHead ++ q)) =
      ([(1, wfix 4 o.category), (2, wfix 32 o.content), (3, wfix 4 o.target), (4, o.tag), (5, wfix 4 o.userNonce),
        (6, o.data)] ++ (scanOf r (opsHead ++ q)).1, (scanOf r (opsHead ++ q)).2) := by
    intro r
    simp only [List.cons_append, List.nil_append]
    rw [scanOf_cons (one_size (wfix_length _ _) (by decide) (by decide) 1),
      scanOf_cons (one_size (wfix_length _ _) (by decide) (by decide) 2),
      scanOf_cons (one_size (wfix_length _ _) (by decide) (by decide) 3),
      scanOf_cons (one_read ht 4),
      scanOf_cons (one_size (wfix_length _ _) (by decide) (by decide) 5),
      scanOf_cons (one_read hd 6)]
    simp
  have h7 : ∀ r, scanOf ([.op 0x7e, .op 0x7c, .push (.value 5), .op 0x7a, .op 0x76, .op 0x6b, .op 0x7e,
       .push (.value 2), .op 0x79, .op 0x6b] ++ r) (opsHead ++ q) = scanOf r q := by
    intro r
    unfold opsHead
    simp (discharger := decide +kernel) only [List.cons_append, List.nil_append, scanOf_op, scanOf_value]
  have e : patHead ++ as = .push (.data boostpow) :: .op 0x75 :: .opt (.pushSize 20 (some 0)) ::
      ([.pushSize 4 (some 1), .pushSize 32 (some 2), .pushSize 4 (some 3),
       .push (.read 4), .pushSize 4 (some 5), .push (.read 6)] ++
      ([.op 0x7e, .op 0x7c, .push (.value 5), .op 0x7a, .op 0x76, .op 0x6b, .op 0x7e,
       .push (.value 2), .op 0x79, .op 0x6b] ++ as)) := rfl
  rw [e]
  simp only [List.append_assoc, List.cons_append, List.nil_append] at h6 ⊢
  rw [scanOf_cons (one_data (by decide)), scanOf_op (by decide) (by decide)]
  unfold Output.log
  cases hc : o.kind with
  | invalid => exact absurd hc hk
  | bounty =>
    rw [if_neg (by simp), if_neg (by simp)]
    simp only [List.nil_append]
    rw [scanOf_opt_not (not_size (by rw [wfix_length]; decide) (by rw [wfix_length]; decide) _), h6]
    simp only [List.cons_append, List.nil_append] at h7
    rw [h7]
    simp
  | contract =>
    rw [if_pos rfl, if_pos rfl]
    simp only [List.cons_append, List.nil_append]
    rw [scanOf_opt (one_size (wfix_length _ _) (by decide) (by decide) 0), h6]
    simp only [List.cons_append, List.nil_append] at h7
    rw [h7]
    simp

theorem matches_of {a : Pat} {p : Bytes} {l : Log} {r : Scan} (h : a.scan 0 p = (l, r)) (hr : r = .ok [] ∨ r = .fail) :
    a.matches 0 p = (l, if r = .ok [] then .yes else .no) := by
  unfold Pat.matches
  rw [h]
  rcases hr with rfl | rfl <;> rfl

theorem fromLE_wfix (k w : Nat) (h : w = 8 * k) (x : BitVec w) : fromLE w (wfix k x) = x := by
  unfold fromLE wfix
  subst h
  rw [leNat_leBytes _ _ (by have := x.isLt; rw [show (256 : Nat) = 2 ^ 8 from rfl, ← Nat.pow_mul]; exact this)]
  simp

theorem op_carriable' {o : Op} (h : 78 < o.toNat) : (op o).Carriable ∧ (op o).data.length + 5 < 2 ^ 32 :=
  ⟨op_carriable o h, (by decide : (0 : Nat) + 5 < 2 ^ 32)⟩

theorem push_ok {d : Bytes} (h : d.length < 2 ^ 31) :
    (Instr.push d).Carriable ∧ (Instr.push d).data.length + 5 < 2 ^ 32 :=
  ⟨push_carriable d h, by have := push_data_length h; omega⟩

theorem ops_ok : ∀ i ∈ opsBits ++ opsPlain, i.Carriable ∧ i.data.length + 5 < 2 ^ 32 := by decide +kernel

/-- What is written is the instructions one after another. -/
theorem Output.write_eq (o : Output) (ht : o.tag.length < 2 ^ 31) (hd : o.data.length < 2 ^ 31) :
    o.write = .ok (o.program.flatMap Instr.write) := by
  have key : ∀ i ∈ o.program, i.Carriable ∧ i.data.length + 5 < 2 ^ 32 := by
    intro i hi
    unfold Output.program at hi
    split at hi
    · simp at hi
    · simp only [List.mem_append] at hi
      rcases hi with ((hi | hi) | hi) | hi
      · simp only [List.mem_cons, List.not_mem_nil, or_false] at hi
        rcases hi with rfl | rfl
        · exact push_ok (by decide)
        · exact op_carriable' (by decide)
      · split at hi
        · simp only [List.mem_cons, List.not_mem_nil, or_false] at hi
          subst hi
          exact push_ok (by rw [wfix_length]; decide)
        · simp at hi
      · simp only [List.mem_cons, List.not_mem_nil, or_false] at hi
        rcases hi with rfl | rfl | rfl | rfl | rfl | rfl
        · exact push_ok (by rw [wfix_length]; decide)
        · exact push_ok (by rw [wfix_length]; decide)
        · exact push_ok (by rw [wfix_length]; decide)
        · exact push_ok ht
        · exact push_ok (by rw [wfix_length]; decide)
        · exact push_ok hd
      · refine ops_ok i (List.mem_append.mpr ?_)
        split at hi
        · exact .inl hi
        · exact .inr hi
  exact compile_ok _ (fun i hi => (key i hi).1) (fun i hi => (key i hi).2)

theorem Output.log_values (o : Output) (l : Log) :
    (l ++ o.log).value 1 [] = wfix 4 o.category ∧ (l ++ o.log).value 2 [] = wfix 32 o.content ∧
    (l ++ o.log).value 3 [] = wfix 4 o.target ∧ (l ++ o.log).value 4 [] = o.tag ∧
    (l ++ o.log).value 5 [] = wfix 4 o.userNonce ∧ (l ++ o.log).value 6 [] = o.data := by
  simp [Output.log, Log.value]

theorem Output.ofLog_log (o : Output) (l : Log) (ht : o.tag.length ≤ 20) (hk : o.kind ≠ .invalid)
    (hb : o.kind = .bounty → o.hash = 0)
    (h0 : (l ++ o.log).value 0 [] = if o.kind = .contract then wfix 20 o.hash else []) :
    Output.ofLog (l ++ o.log) o.useBits = o := by
  obtain ⟨h1, h2, h3, h4, h5, h6⟩ := o.log_values l
  unfold Output.ofLog
  rw [h0, h1, h2, h3, h4, h5, h6, if_neg (by omega)]
  simp only [fromLE_wfix 4 32 rfl, fromLE_wfix 32 256 rfl]
  obtain ⟨kind, hash, category, useBits, content, target, tag, userNonce, data⟩ := o
  cases kind with
  | invalid => exact absurd rfl hk
  | bounty => simp at hb; subst hb; simp
  | contract => simp [fromLE_wfix 20 160 rfl]

theorem Output.read_program (o : Output) (hk : o.kind ≠ .invalid) (ht : o.tag.length < 2 ^ 31)
    (hd : o.data.length < 2 ^ 31) :
    Output.read (o.program.flatMap Instr.write) =
      some (.ofLog (if o.useBits then o.log else o.log ++ o.log) o.useBits) := by
  have e1 : patBits = .sequence (patHead ++ patBits') := by rw [patBits, List.append_assoc]; rfl
  have e2 : patPlain = .sequence (patHead ++ patPlain') := by rw [patPlain, List.append_assoc]; rfl
  unfold Output.read
  cases hu : o.useBits with
  | true =>
    have := scan_head o hk ht hd patBits' opsBits' (by rw [hu, if_pos rfl, opsBits_eq])
    rw [scan_bits] at this
    rw [e1, matches_of (l := o.log) (r := .ok []) (by simpa [scanOf] using this) (.inl rfl)]
    simp
  | false =>
    have := scan_head o hk ht hd patBits' opsPlain' (by rw [hu, opsPlain_eq]; rfl)
    rw [scan_bits_plain] at this
    rw [e1, matches_of (l := o.log) (r := .fail) (by simpa [scanOf] using this) (.inr rfl)]
    have := scan_head o hk ht hd patPlain' opsPlain' (by rw [hu, opsPlain_eq]; rfl)
    rw [scan_plain] at this
    rw [e2, matches_of (l := o.log) (r := .ok []) (by simpa [scanOf] using this) (.inl rfl)]
    simp

theorem Output.round {o : Output} (hk : o.kind ≠ .invalid) (ht : o.tag.length ≤ 20) (hd : o.data.length < 2 ^ 31)
    (hb : o.kind = .bounty → o.hash = 0) : ∃ b, o.write = .ok b ∧ Output.read b = some o := by
  refine ⟨_, o.write_eq (by omega) hd, ?_⟩
  rw [o.read_program hk (by omega) hd]
  have z : o.log.value 0 [] = if o.kind = .contract then wfix 20 o.hash else [] := by
    unfold Output.log
    split <;> simp [Log.value]
  have z2 : (o.log ++ o.log).value 0 [] = if o.kind = .contract then wfix 20 o.hash else [] := by
    unfold Output.log
    split <;> simp [Log.value]
  cases hu : o.useBits with
  | true => have := o.ofLog_log [] ht hk hb z; rw [hu] at this; simpa using this
  | false => have := o.ofLog_log o.log ht hk hb z2; rw [hu] at this; simpa using this

/-- C49, outputs: the script written for a bounty or a contract is read as the same bounty
or contract, if the tag has at most 20 bytes. -/
theorem C49_output_partial (category : BitVec 32) (content : BitVec 256) (target : Compact) (tag : Bytes)
    (userNonce : BitVec 32) (data : Bytes) (hash : BitVec 160) (useBits : Bool)
    (ht : tag.length ≤ 20) (hd : data.length < 2 ^ 31) :
    (∃ b, (Output.bounty category content target tag userNonce data useBits).write = .ok b ∧
      Output.read b = some ⟨.bounty, 0, category, useBits, content, target, tag, userNonce, data⟩) ∧
    (∃ b, (Output.contract category content target tag userNonce data hash useBits).write = .ok b ∧
      Output.read b = some ⟨.contract, hash, category, useBits, content, target, tag, userNonce, data⟩) := by
  refine ⟨?_, ?_⟩
  · unfold Output.bounty
    rw [if_neg (by omega)]
    exact Output.round (by simp) ht hd (by simp)
  · exact Output.round (by simp [Output.contract]) ht hd (by simp [Output.contract])

example : ([0x74] : Bytes).length ≤ 20 ∧ ([1, 2, 3] : Bytes).length < 2 ^ 31 := by decide

/-- C49 is false of contracts with longer tags: they can be made, but what is written is
not read as a Boost script. -/
theorem C49_false_tag (category : BitVec 32) (content : BitVec 256) (target : Compact) (tag : Bytes)
    (userNonce : BitVec 32) (data : Bytes) (hash : BitVec 160) (useBits : Bool)
    (ht : 20 < tag.length) (ht' : tag.length < 2 ^ 31) (hd : data.length < 2 ^ 31) :
    (Output.contract category content target tag userNonce data hash useBits).valid = true ∧
    ∃ b, (Output.contract category content target tag userNonce data hash useBits).write = .ok b ∧
      ∃ o, Output.read b = some o ∧ o.valid = false := by
  refine ⟨rfl, _, Output.write_eq _ ht' hd, _, Output.read_program _ (by simp [Output.contract]) ht' hd, ?_⟩
  unfold Output.ofLog
  have key : ∀ l : Log, ∀ o : Output, o.tag = tag → ((l ++ o.log).value 4 []).length > 20 := by
    intro l o h
    rw [(o.log_values l).2.2.2.1, h]
    exact ht
  rw [if_pos]
  · rfl
  · split
    · exact key [] (Output.contract category content target tag userNonce data hash useBits) rfl
    · exact key _ (Output.contract category content target tag userNonce data hash useBits) rfl

/-! ### Inputs -/

def Input.log (i : Input) : Log :=
  [(0, i.signature), (1, i.pubkey), (2, wfix 4 i.nonce), (3, wfix 4 i.timestamp), (4, i.extraNonce2),
   (5, (wfix 4 i.extraNonce1).reverse)] ++
  (match i.bits with | some b => [(6, wfix 4 b)] | none => []) ++
  (if i.kind = .bounty then [(7, wfix 20 i.hash)] else [])

theorem Input.write_eq (i : Input) (hs : i.signature.length < 2 ^ 31) (hp : i.pubkey.length = 33 ∨ i.pubkey.length = 65)
    (hn : i.extraNonce2.length < 2 ^ 31) : i.write = .ok (i.program.flatMap Instr.write) := by
  have key : ∀ j ∈ i.program, j.Carriable ∧ j.data.length + 5 < 2 ^ 32 := by
    intro j hj
    unfold Input.program at hj
    split at hj
    · simp at hj
    · simp only [List.mem_append] at hj
      rcases hj with (hj | hj) | hj
      · simp only [List.mem_cons, List.not_mem_nil, or_false] at hj
        rcases hj with rfl | rfl | rfl | rfl | rfl | rfl
        · exact push_ok hs
        · exact push_ok (by omega)
        · exact push_ok (by rw [wfix_length]; decide)
        · exact push_ok (by rw [wfix_length]; decide)
        · exact push_ok hn
        · exact push_ok (by rw [List.length_reverse, wfix_length]; decide)
      · split at hj
        · simp only [List.mem_cons, List.not_mem_nil, or_false] at hj
          subst hj
          exact push_ok (by rw [wfix_length]; decide)
        · simp at hj
      · split at hj
        · simp only [List.mem_cons, List.not_mem_nil, or_false] at hj
          subst hj
          exact push_ok (by rw [wfix_length]; decide)
        · simp at hj
  exact compile_ok _ (fun i hi => (key i hi).1) (fun i hi => (key i hi).2)

theorem scan_input (i : Input) (hk : i.kind ≠ .invalid) (hs : i.signature.length < 2 ^ 31)
    (hp : i.pubkey.length = 33 ∨ i.pubkey.length = 65) (hn : i.extraNonce2.length < 2 ^ 31) :
    patInput.scan 0 (i.program.flatMap Instr.write) = (i.log, .ok []) := by
  show scanOf _ i.program = _
  unfold Input.program Input.log
  rw [if_neg hk]
  have h4 : ∀ (n : BitVec 32) (s : Nat), One (.pushSize 4 (some s)) (Instr.push (wfix 4 n)) [(s, wfix 4 n)] :=
    fun n s => one_size (wfix_length _ _) (by decide) (by decide) s
  have h20 : One (.pushSize 20 (some 7)) (Instr.push (wfix 20 i.hash)) [(7, wfix 20 i.hash)] :=
    one_size (wfix_length _ _) (by decide) (by decide) 7
  have n20 : Not (.pushSize 4 (some 6)) (Instr.push (wfix 20 i.hash)) :=
    not_size (by rw [wfix_length]; decide) (by rw [wfix_length]; decide) _
  simp only [List.cons_append, List.nil_append]
  rw [scanOf_cons (one_read hs 0), scanOf_cons (one_pubkey hp 1), scanOf_cons (h4 _ 2), scanOf_cons (h4 _ 3),
    scanOf_cons (one_read hn 4),
    scanOf_cons (one_size (by rw [List.length_reverse, wfix_length]) (by decide) (by decide) 5)]
  cases i.bits with
  | none =>
    cases hc : i.kind with
    | invalid => exact absurd hc hk
    | bounty =>
      simp only [↓reduceIte, List.nil_append]
      rw [scanOf_opt_not n20, scanOf_opt h20, scanOf_nil]
      simp
    | contract =>
      simp only [reduceCtorEq, ↓reduceIte, List.nil_append]
      rw [scanOf_opt_end, scanOf_opt_end, scanOf_nil]
      simp
  | some b =>
    cases hc : i.kind with
    | invalid => exact absurd hc hk
    | bounty =>
      simp only [↓reduceIte, List.cons_append, List.nil_append]
      rw [scanOf_opt (h4 b 6), scanOf_opt h20, scanOf_nil]
      simp
    | contract =>
      simp only [reduceCtorEq, ↓reduceIte, List.cons_append, List.nil_append]
      rw [scanOf_opt (h4 b 6), scanOf_opt_end, scanOf_nil]
      simp

/-- C49, inputs: the script written for a valid input is read as the same input, if its
key has the size of a key.  The miner's hash of a contract is not written. -/
theorem C49_input_partial (i : Input) (hv : i.valid = true) (hs : i.signature.length < 2 ^ 31)
    (hp : i.pubkey.length = 33 ∨ i.pubkey.length = 65) (hh : i.kind = .contract → i.hash = 0) :
    ∃ b, i.write = .ok b ∧ Input.read b = some i := by
  have hk : i.kind ≠ .invalid := by
    intro h
    simp [Input.valid, h] at hv
  have hn : i.bits.isSome ∧ i.extraNonce2.length ≤ 32 ∨ i.extraNonce2.length = 8 := by
    simp only [Input.valid, Bool.and_eq_true, Bool.or_eq_true, beq_iff_eq, decide_eq_true_eq] at hv
    tauto
  refine ⟨_, i.write_eq hs hp (by omega), ?_⟩
  unfold Input.read
  rw [matches_of (scan_input i hk hs hp (by omega)) (.inl rfl), if_pos rfl]
  simp only [Option.some.injEq]
  obtain ⟨kind, signature, pubkey, nonce, timestamp, n2, n1, bits, hash⟩ := i
  unfold Input.ofLog Input.log
  simp only at hn hk hh ⊢
  cases bits <;> cases kind <;>
    simp_all [Log.value, fromLE_wfix 4 32 rfl, fromLE_wfix 20 160 rfl]
  all_goals omega

example : (Input.bounty [0x30] (List.replicate 33 2) 1 2 (List.replicate 8 0) 3 none 5).valid = true ∧
    (Input.contract [0x30] (List.replicate 33 2) 1 2 [] 3 (some 7)).valid = true := by decide

/-- Nothing is written for an invalid output or input, and nothing is not a Boost script. -/
theorem C49_empty : Output.empty.write = .ok [] ∧ Input.empty.write = .ok [] ∧
    Output.read [] = some .empty ∧ Input.read [] = some .empty := by decide +kernel

end Verif.Boost
