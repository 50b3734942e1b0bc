import Verif.Script.RunLemmas

/-
C78: payments to an address or a public key are redeemed by the scripts the
library makes for them.  C79: the locking script decides.
-/

namespace Verif.Script

open Verif SM

/-! ### Model -/

/-- `pay_to_address::script`, include/gigamonkey/script/pattern/pay_to_address.hpp 17-20. -/
def payToAddress (h : Bytes) : Program := [⟨0x76, []⟩, ⟨0xa9, []⟩, Instr.push h, ⟨0x88, []⟩, ⟨0xac, []⟩]

/-- `pay_to_address::redeem`, pay_to_address.hpp 39-42. -/
def redeemAddress (sig pub : Bytes) : Program := [Instr.push sig, Instr.push pub]

/-- `pay_to_pubkey::script`, include/gigamonkey/script/pattern/pay_to_pubkey.hpp 16-19. -/
def payToPubkey (pub : Bytes) : Program := [Instr.push pub, ⟨0xac, []⟩]

/-- `pay_to_pubkey::redeem`, pay_to_pubkey.hpp 38-41. -/
def redeemPubkey (sig : Bytes) : Program := [Instr.push sig]

/-! ### Preparation -/

/-- An instruction that `valid_program` looks at without consequences. -/
def Plain (c : Cfg) (i : Instr) : Prop :=
  i.verify c.minimal = .ok ∧ (c.minimal = true → isMinimalInstruction i = true) ∧
    i.op ≠ 0x6a ∧ i.op ≠ 0x68 ∧ i.op ≠ 0x67 ∧ i.op ≠ 0x63 ∧ i.op ≠ 0x64

theorem validProgram_plain {c : Cfg} {i : Instr} (h : Plain c i) (p : Program) (ctl : List Op) :
    validProgram c (i :: p) ctl = validProgram c p ctl := by
  obtain ⟨h1, h2, h3, h4, h5, h6, h7⟩ := h
  rw [validProgram.eq_def]
  simp only
  rw [if_neg (by simp [h1])]
  have : (c.minimal && !isMinimalInstruction i) = false := by
    cases hm : c.minimal with
    | false => rfl
    | true => simp [h2 hm]
  rw [this]
  simp [h3, h4, h5, h6, h7]

theorem validProgram_allPlain {c : Cfg} {p : Program} (h : ∀ i ∈ p, Plain c i) : validProgram c p [] = .ok := by
  induction p with
  | nil => rfl
  | cons i p ih =>
    rw [validProgram_plain (h i (by simp))]
    exact ih (fun j hj => h j (by simp [hj]))

theorem preVerify_allPlain {c : Cfg} {p : Program} (h : ∀ i ∈ p, Plain c i) : preVerify c p = .ok := by
  unfold preVerify
  have hv := validProgram_allPlain h
  cases p with
  | nil => rfl
  | cons i rest =>
    simp only
    split
    · split
      · split
        · rfl
        · exact hv
      · exact hv
    · split
      · rfl
      · exact hv

/-- Data from 2 to 75 bytes long is pushed by its length. -/
theorem push_short {d : Bytes} (h : 2 ≤ d.length) (h' : d.length ≤ 75) :
    Instr.push d = ⟨UInt8.ofNat d.length, d⟩ := by
  rw [push_eq d (by omega)]
  rw [if_neg (by intro h0; rw [h0] at h; simp at h)]
  have : isSmallNumber d = false := by
    match d, h with
    | a :: b :: t, _ => rfl
  rw [this]
  simp [h']

theorem plain_push {c : Cfg} {d : Bytes} (h : 2 ≤ d.length) (h' : d.length ≤ 75) : Plain c (Instr.push d) := by
  rw [push_short h h']
  have e : (UInt8.ofNat d.length).toNat = d.length := by simp; omega
  have hne : ∀ k : UInt8, 75 < k.toNat → UInt8.ofNat d.length ≠ k := by
    intro k hk hc
    rw [← hc, e] at hk
    omega
  have hp : isPushData (UInt8.ofNat d.length) = true := (isPushData_iff _).mpr (by rw [e]; omega)
  have hsm : isSmallNumber d = false := by
    match d, h with
    | a :: b :: t, _ => rfl
  have hv : verifyInstruction ⟨UInt8.ofNat d.length, d⟩ = .ok := by
    unfold verifyInstruction
    have hge : ¬ UInt8.ofNat d.length ≥ 0xba := by
      intro hc
      have := (ge_iff _ _).mp hc
      have e2 : (0xba : UInt8).toNat = 186 := rfl
      omega
    rw [if_neg (by
      rintro (h | h | h | h | h)
      · exact hne _ (by decide) h
      · exact hne _ (by decide) h
      · exact hne _ (by decide) h
      · exact hne _ (by decide) h
      · exact hge h)]
    simp only [hp]
    have n1 := hne 0x4c (by decide)
    have n2 := hne 0x4d (by decide)
    have n3 := hne 0x4e (by decide)
    rw [if_neg (by simp), if_neg (by
      rintro (⟨_, h⟩ | ⟨h, _⟩ | ⟨h, _⟩ | ⟨h, _⟩)
      · exact h e
      · exact n1 h
      · exact n2 h
      · exact n3 h)]
  have hmin : isMinimalPush (UInt8.ofNat d.length) d = true := by
    unfold isMinimalPush
    simp only [hp, hsm]
    rw [if_neg (by simp), if_neg (by simp), if_neg (hne _ (by decide)), if_neg (hne _ (by decide)),
      if_neg (hne _ (by decide))]
  refine ⟨?_, ?_, hne _ (by decide), hne _ (by decide), hne _ (by decide), hne _ (by decide), hne _ (by decide)⟩
  · simp [Instr.verify, hv, hmin]
  · intro _
    simp [isMinimalInstruction, hv, hmin]

theorem plain_op {c : Cfg} (o : Op) (h : o = 0x76 ∨ o = 0xa9 ∨ o = 0x88 ∨ o = 0xac ∨ o = 0xab) : Plain c ⟨o, []⟩ := by
  rcases h with rfl | rfl | rfl | rfl | rfl <;>
  exact ⟨by simp [Instr.verify, verifyInstruction, isMinimalPush, isPushData], fun _ => by decide,
    by decide, by decide, by decide, by decide, by decide⟩

theorem op_carriable (o : Op) (h : 78 < o.toNat) : Instr.Carriable ⟨o, []⟩ := .inr (.inr (.inr (.inr ⟨h, rfl⟩)))

theorem plain_verify {c : Cfg} {i : Instr} (h : Plain c i) : i.verify false = .ok := by
  have h1 := h.1
  unfold Instr.verify at h1 ⊢
  simp only at h1 ⊢
  split at h1
  · rename_i hn; exact absurd h1 hn
  · rename_i hn
    rw [if_neg hn]
    simp

theorem control_plain (p : Program) (h : ∀ i ∈ p, i.op ≠ 0x68 ∧ i.op ≠ 0x67 ∧ i.op ≠ 0x63 ∧ i.op ≠ 0x64) :
    Balanced p := by
  induction p with
  | nil => exact .nil
  | cons i p ih =>
    obtain ⟨h1, h2, h3, h4⟩ := h i (by simp)
    exact .plain i p (by simp [h1, h2, h3, h4]) (ih fun j hj => h j (by simp [hj]))

/-- A program of plain instructions decompiles to itself. -/
theorem decompile_plain {c : Cfg} {p : Program} (h : ∀ i ∈ p, Plain c i) (hc : ∀ i ∈ p, i.Carriable) :
    decompileS (p.flatMap Instr.write) = .ok p := by
  have hb := control_plain p fun i hi => ⟨(h i hi).2.2.2.1, (h i hi).2.2.2.2.1, (h i hi).2.2.2.2.2⟩
  have : decompile (p.flatMap Instr.write) = .ok p := by
    unfold decompile
    rw [decompileLoop_write p [] _ hc (fun i hi => plain_verify (h i hi)) (Nat.le_refl _), hb.control]
    rfl
  unfold decompileS
  rw [this]
  rfl

/-- Preparing two programs of plain instructions, the second not a payment to a
script hash. -/
theorem prepare_plain {c : Cfg} {u l : Program} (hu : ∀ i ∈ u, Plain c i) (hl : ∀ i ∈ l, Plain c i)
    (cu : ∀ i ∈ u, i.Carriable) (cl : ∀ i ∈ l, i.Carriable) (pu : isPushProgram u = true)
    (hn : isP2SH l = .ok false) :
    prepare c (u.flatMap Instr.write) (l.flatMap Instr.write) = .ok (u ++ [Instr.mk 0xab []] ++ l, .ok) := by
  have hf : full u l c.p2sh = .ok (u ++ [Instr.mk 0xab []] ++ l) := by
    unfold full
    have : (if c.p2sh = true then isP2SH l else .ok false) = .ok false := by split <;> simp [hn]
    rw [this]
    simp only
    split <;> simp
  have hall : ∀ i ∈ u ++ [Instr.mk 0xab []] ++ l, Plain c i := by
    intro i hi
    simp only [List.mem_append, List.mem_singleton] at hi
    rcases hi with (hi | rfl) | hi
    · exact hu i hi
    · exact plain_op 0xab (by simp)
    · exact hl i hi
  unfold prepare
  rw [decompile_plain hu cu, decompile_plain hl cl]
  simp only [Bind.bind, Except.bind]
  rw [hf]
  simp only [pu, Bool.not_true, Bool.and_false, Bool.false_eq_true, if_false]
  have : (if c.p2sh = true then isP2SH l else .ok false) = .ok false := by split <;> simp [hn]
  rw [this]
  simp only
  rw [preVerify_allPlain hall]

/-- What evaluation reports for a finished run. -/
def outOf : Option (Stop × Machine) → EvalOut
  | none => .unfinished
  | some (s, _) => match caught s with
    | none => .ub
    | some r => .done r

/-- Evaluating a program that pushes and another one is pushing the values and
running the other. -/
theorem evaluate_pushes {x : Env} {u l : Program}
    (cu : ∀ i ∈ u, i.Carriable) (cl : ∀ i ∈ l, i.Carriable) (pu : isPushProgram u = true)
    (hp : prepare x.cfg (u.flatMap Instr.write) (l.flatMap Instr.write) = .ok (u ++ [Instr.mk 0xab []] ++ l, .ok))
    (hlen : 2 * (u.flatMap Instr.write).length + (l.flatMap Instr.write).length + 2 < 2 ^ 31)
    (hf : Fits x.cfg (u.map Instr.pushData).reverse []) (ho : 1 ≤ x.cfg.maxOps) (n : Nat) :
    evaluate x (u.length + (n + 1)) (u.flatMap Instr.write) (l.flatMap Instr.write) =
      outOf (machineRun x n
        (atP (u.flatMap Instr.write ++ [0xab]) l (u.flatMap Instr.write ++ [0xab]).length)
        { withStacks x.cfg .init (u.map Instr.pushData).reverse [] with opCount := 1 }) := by
  obtain ⟨c, c', hs, hv, he⟩ := evaluate_prepared (n := u.length + (n + 1)) hp hlen
  have hcar : ∀ j ∈ u ++ ([Instr.mk 0xab []] ++ l), j.Carriable := by
    intro j hj
    simp only [List.mem_append, List.mem_singleton] at hj
    rcases hj with hj | rfl | hj
    · exact cu j hj
    · exact op_carriable 0xab (by decide)
    · exact cl j hj
  have hlen' : ([] ++ (u ++ ([Instr.mk 0xab []] ++ l)).flatMap Instr.write).length < 2 ^ 31 := by
    have e : (Instr.mk 0xab []).write = [0xab] := by decide
    simp only [List.nil_append, List.flatMap_append, List.flatMap_cons, List.flatMap_nil, List.append_nil,
      List.length_append, e, List.length_singleton]
    omega
  have hc0 : c = atP [] (u ++ ([Instr.mk 0xab []] ++ l)) 0 := by
    unfold Counter.start at hs
    rw [List.append_assoc, readInstruction_flatMap _ hcar
      (flatMap_data_lt _ hcar (by rw [List.nil_append] at hlen'; exact hlen'))] at hs
    simp only [Option.map_some, Option.some.injEq] at hs
    rw [← hs]
    rfl
  rw [he, hc0]
  rw [run_pushes x u ([Instr.mk 0xab []] ++ l) pu hcar (n + 1) [] 0 .init hlen' (wf_init _) (by simp [Machine.init])
    (by simpa [Machine.init] using hf)]
  simp only [List.nil_append, Machine.init, List.append_nil]
  rw [if_neg (by simp)]
  have hstep : ∀ m : Machine, m.exec = [] → m.opCount = 0 →
      step x (atP (u.flatMap Instr.write) (Instr.mk 0xab [] :: l) 0) m = .ok () { m with opCount := 1 } := by
    intro m hx h0
    rw [C23_step x _ 0xab [] m rfl (by decide) (by simp [hx]) (by omega)]
    rw [h0]
    rfl
  have := run_ok (hstep (withStacks x.cfg .init (u.map Instr.pushData).reverse []) rfl rfl)
    (fun j hj => hcar j (by simp at hj ⊢; tauto)) (by simpa using hlen') n
  have e : (Instr.mk 0xab []).write = [0xab] := by decide
  rw [e] at this
  simp only [List.head?_cons, if_true, List.length_singleton] at this
  rw [show ([Instr.mk 0xab []] ++ l : Program) = Instr.mk 0xab [] :: l from rfl]
  rw [List.length_append, List.length_singleton]
  simp only [Machine.init] at this
  rw [this]
  generalize machineRun x n _ _ = o
  rcases o with _ | ⟨s, _⟩
  · rfl
  · rfl

/-- Evaluating plain programs is running the one after the other. -/
theorem evaluate_plain {x : Env} {u l : Program} (hu : ∀ i ∈ u, Plain x.cfg i) (hl : ∀ i ∈ l, Plain x.cfg i)
    (cu : ∀ i ∈ u, i.Carriable) (cl : ∀ i ∈ l, i.Carriable) (pu : isPushProgram u = true)
    (hn : isP2SH l = .ok false)
    (hlen : 2 * (u.flatMap Instr.write).length + (l.flatMap Instr.write).length + 2 < 2 ^ 31)
    (hf : Fits x.cfg (u.map Instr.pushData).reverse []) (ho : 1 ≤ x.cfg.maxOps) (n : Nat) :
    evaluate x (u.length + (n + 1)) (u.flatMap Instr.write) (l.flatMap Instr.write) =
      outOf (machineRun x n
        (atP (u.flatMap Instr.write ++ [0xab]) l (u.flatMap Instr.write ++ [0xab]).length)
        { withStacks x.cfg .init (u.map Instr.pushData).reverse [] with opCount := 1 }) :=
  evaluate_pushes cu cl pu (prepare_plain hu hl cu cl pu hn) hlen hf ho n

/-- A machine with the given stack and operation count, and nothing else. -/
def machineAt (c : Cfg) (s : List Bytes) (k : Nat) : Machine :=
  ⟨s, [], [], [], k, if c.genesisStack then (usage s : Nat) else 0⟩

theorem machineAt_withStacks (c : Cfg) (s s' : List Bytes) (k : Nat) :
    withStacks c (machineAt c s k) s' [] = machineAt c s' k := by
  unfold withStacks machineAt
  cases c.genesisStack <;> simp [usage]

theorem machineAt_start (c : Cfg) (s : List Bytes) :
    { withStacks c .init s [] with opCount := 1 } = machineAt c s 1 := by
  unfold withStacks machineAt Machine.init
  cases c.genesisStack <;> simp [usage]

theorem machineAt_wf {c : Cfg} {s : List Bytes} (h : Fits c s []) (k : Nat) : Wf c (machineAt c s k) := by
  refine ⟨h, fun g => ?_⟩
  simp [machineAt, g, usage]

theorem step_counted (x : Env) (ctr : Counter) (o : Op) (s : List Bytes) (k : Nat) (hn : ctr.next = [o])
    (ho : 0x60 < o) (hk : k < x.cfg.maxOps) :
    step x ctr (machineAt x.cfg s k) = execOp x ctr o (machineAt x.cfg s (k + 1)) :=
  C23_step x ctr o [] _ hn ho (by simp [machineAt]) hk

theorem modifyTop_at {c : Cfg} {f : Bytes → Except Stop Bytes} {b b' : Bytes} {s : List Bytes} {k : Nat}
    (hf : f b = .ok b') (hfit : Fits c (b' :: s) []) :
    modifyTop c f (machineAt c (b :: s) k) = .ok () (machineAt c (b' :: s) k) := by
  unfold modifyTop machineAt
  simp only [hf]
  unfold Fits at hfit
  cases g : c.genesisStack with
  | true =>
    rw [g] at hfit
    simp only [if_true] at hfit ⊢
    rw [usage_cons] at hfit
    simp only [usage_cons]
    have h0 : usage [] = 0 := rfl
    split
    · unfold increaseMem
      simp only
      rw [if_neg (by push_cast; omega)]
      simp only [Res.ok.injEq, Machine.mk.injEq, true_and]
      omega
    · unfold decreaseMem
      simp only [Res.ok.injEq, Machine.mk.injEq, true_and]
      push_cast
      omega
  | false =>
    rw [g] at hfit
    simp only [Bool.false_eq_true, if_false] at hfit ⊢
    have := hfit.2 b' (.inl (by simp))
    rw [if_neg (by unfold maxElement; omega)]

/-- CHECKSIG with a document: an error of the signature check stops the script,
otherwise its verdict replaces key and signature. -/
theorem checkSig_at (x : Env) (ctr : Counter) (d : Doc) (hd : x.doc = some d) (p : Program)
    (hp : ctr.toLastCodeSeparator = .ok p) (sig pub : Bytes) (k : Nat) (hf : Fits x.cfg [pub, sig] []) :
    execOp x ctr 0xac (machineAt x.cfg [pub, sig] k) =
      let r := d.verifySig sig pub (cleanupScriptCode p sig) x.cfg.flags
      if r.error ≠ .ok then .stop (.ret (.ofError r.error)) (machineAt x.cfg [pub, sig] k)
      else .ok () (machineAt x.cfg [numBool r.success] k) := by
  rw [show execOp x ctr 0xac = opCheckSig x.cfg x.doc ctr false from rfl]
  generalize hr : d.verifySig sig pub (cleanupScriptCode p sig) x.cfg.flags = r
  have hres : checkSigResult x.cfg x.doc ctr sig pub (machineAt x.cfg [pub, sig] k) =
      .ok r (machineAt x.cfg [pub, sig] k) := by
    unfold checkSigResult
    rw [hd]
    simp only
    rw [SM.bind_def]
    unfold scriptCode
    rw [hp]
    simp only [SM.pure_def', hr]
  generalize x.cfg = c at *
  unfold opCheckSig
  have hw := machineAt_wf hf k
  rw [need_bind_pass (by simp [machineAt]), top_bind (-2) 1 (by omega) (by rfl),
    top_bind (-1) 0 (by omega) (by rfl), SM.bind_def, hres]
  simp only
  by_cases he : r.error = .ok
  · rw [failIf_bind_pass (by simp [he])]
    rw [pop_bind hw rfl]
    rw [pop_bind (wf_pop hw rfl) rfl]
    have h2 := wf_pop (wf_pop hw rfl) (show (withStacks c (machineAt c [pub, sig] k) [sig] _).stack = sig :: [] from rfl)
    have hfb := fits_bool hf r.success
    refine ((push_bind h2 (numBool r.success) _).1 hfb).trans ?_
    rw [if_neg (not_not.mpr he)]
    simp only [withStacks_withStacks]
    exact congrArg (Res.ok ()) (machineAt_withStacks c _ _ k)
  · rw [if_pos he, failIf_bind_fail he]

theorem end_at (x : Env) (ctr : Counter) (hn : ctr.next = []) (b : Bool) (k : Nat) :
    step x ctr (machineAt x.cfg [numBool b] k) = .stop (.ret ⟨.ok, b⟩) (machineAt x.cfg [numBool b] k) := by
  unfold step
  rw [hn]
  simp only
  unfold endOfScript
  rw [SM.bind_def]
  simp only [SM.get]
  rw [failIf_bind_pass (by simp [machineAt]), SM.bind_def]
  unfold haltIf
  rw [if_neg (by simp [machineAt])]
  show (top (-1) >>= fun t => (finish (nonzero t) : SM Unit)) _ = _
  rw [top_bind (-1) 0 (by omega) (by rfl)]
  cases b <;> rfl

/-- What a limit of the memory must allow: all configurations before genesis
do. -/
def Roomy (c : Cfg) (n : Nat) : Prop := c.genesisStack = true → n ≤ c.maxMem

theorem fits_roomy {c : Cfg} {n : Nat} (h : Roomy c n) (s : List Bytes) (hu : usage s ≤ n) (hl : s.length ≤ 1000)
    (hb : ∀ b ∈ s, b.length ≤ 520) : Fits c s [] := by
  unfold Fits
  cases g : c.genesisStack with
  | true =>
    have := h g
    simp only [if_true]
    have h0 : usage [] = 0 := rfl
    omega
  | false =>
    simp only [Bool.false_eq_true, if_false, List.length_nil, List.not_mem_nil, or_false]
    exact ⟨by omega, hb⟩

theorem writes_op (o : Op) (h : 78 < o.toNat) : (Instr.mk o []).write = [o] := by
  unfold Instr.write
  rw [(isPushData_false_iff o).mpr h]
  rfl

theorem push_isPush {d : Bytes} (h : 2 ≤ d.length) (h' : d.length ≤ 75) : isPush (Instr.push d).op = true := by
  rw [push_short h h']
  have e : (UInt8.ofNat d.length).toNat = d.length := by simp; omega
  have : ∀ o : Op, o.toNat ≤ 75 → isPush o = true := forall_byte _ (by decide +kernel)
  exact this _ (by rw [e]; exact h')

theorem push_write_length {d : Bytes} (h : 2 ≤ d.length) (h' : d.length ≤ 75) :
    (Instr.push d).write = UInt8.ofNat d.length :: d := by
  rw [push_short h h']
  unfold Instr.write
  have e : (UInt8.ofNat d.length).toNat = d.length := by simp; omega
  have hp : isPushData (UInt8.ofNat d.length) = true := (isPushData_iff _).mpr (by rw [e]; omega)
  have hle : UInt8.ofNat d.length ≤ 0x4b := (le75_iff _).mpr (by rw [e]; exact h')
  simp [hp, hle]

theorem toLastSep (pre : Bytes) (l done : Program) (q : Program) (hq : l = done ++ q) (hpl : ∀ i ∈ l, Plain c i)
    (hc : ∀ i ∈ l, i.Carriable) :
    (atP (pre ++ done.flatMap Instr.write) q pre.length).toLastCodeSeparator = .ok l := by
  have hb := control_plain l fun i hi => ⟨(hpl i hi).2.2.2.1, (hpl i hi).2.2.2.2.1, (hpl i hi).2.2.2.2.2⟩
  unfold Counter.toLastCodeSeparator atP
  simp only
  rw [List.append_assoc, List.drop_left, ← List.flatMap_append, ← hq]
  unfold decompile
  rw [decompileLoop_write l [] _ hc (fun i hi => plain_verify (hpl i hi)) (Nat.le_refl _), hb.control]
  rfl

/-! ## C78 -/

/-- What evaluation reports for the verdict of a signature check. -/
def verdict (r : Result) : Result := if r.error = .ok then ⟨.ok, r.success⟩ else ⟨r.error, false⟩

theorem mem_payToAddress {h : Bytes} (hh : h.length = 20) (c : Cfg) :
    (∀ i ∈ payToAddress h, Plain c i) ∧ ∀ i ∈ payToAddress h, i.Carriable := by
  constructor
  · intro i hi
    simp only [payToAddress, List.mem_cons, List.not_mem_nil, or_false] at hi
    rcases hi with rfl | rfl | rfl | rfl | rfl
    · exact plain_op _ (by simp)
    · exact plain_op _ (by simp)
    · exact plain_push (by omega) (by omega)
    · exact plain_op _ (by simp)
    · exact plain_op _ (by simp)
  · intro i hi
    simp only [payToAddress, List.mem_cons, List.not_mem_nil, or_false] at hi
    rcases hi with rfl | rfl | rfl | rfl | rfl
    · exact op_carriable _ (by decide)
    · exact op_carriable _ (by decide)
    · exact push_carriable _ (by omega)
    · exact op_carriable _ (by decide)
    · exact op_carriable _ (by decide)

theorem payToAddress_write {h : Bytes} (hh : h.length = 20) :
    (payToAddress h).flatMap Instr.write = [0x76, 0xa9, 0x14] ++ h ++ [0x88, 0xac] := by
  have : (Instr.push h).write = 0x14 :: h := by rw [push_write_length (by omega) (by omega), hh]; rfl
  simp [payToAddress, this, writes_op]

theorem payToAddress_compile {h : Bytes} (hh : h.length = 20) :
    compile (payToAddress h) = .ok ([0x76, 0xa9, 0x14] ++ h ++ [0x88, 0xac]) := by
  obtain ⟨hp, hc⟩ := mem_payToAddress hh ⟨0, 0, 0, 0, 0⟩
  rw [compile_ok _ hc (flatMap_data_lt _ hc (by rw [payToAddress_write hh]; simp [hh])), payToAddress_write hh]

theorem equalverify_differ (x : Env) (ctr : Counter) (m : Machine) (h : Wf x.cfg m) (a b : Bytes) (s : List Bytes)
    (hs : m.stack = b :: a :: s) (hne : a ≠ b) :
    ∃ m', execOp x ctr 0x88 m = .stop (.ret (.ofError .equalVerify)) m' := by
  rw [show execOp x ctr 0x88 = opEqual x.cfg true from rfl]
  generalize x.cfg = c at *
  unfold opEqual
  have hf := h.1
  rw [hs] at hf
  have h1 := wf_pop h hs
  have h2 := wf_pop h1 (show (withStacks c m (a :: s) m.alt).stack = a :: s from rfl)
  rw [withStacks_withStacks] at h2
  have hp := fits_bool hf false
  rw [need_bind_pass (by simp [hs]), top_bind (-2) 1 (by omega) (by rw [hs]; rfl),
    top_bind (-1) 0 (by omega) (by rw [hs]; rfl), pop_bind h hs, pop_bind h1 rfl, withStacks_withStacks]
  simp only [show (a == b) = false by simp [hne]]
  refine ⟨_, ((push_bind h2 (numBool false) _).1 hp).trans rfl⟩

theorem run_payToAddress (x : Env) (d : Doc) (hd : x.doc = some d) (sig pub h : Bytes)
    (hsig : 2 ≤ sig.length ∧ sig.length ≤ 75) (hpub : 2 ≤ pub.length ∧ pub.length ≤ 75) (hh : h.length = 20)
    (g : Bytes) (hg : g.length = 20) (hash : x.hash .hash160 pub = g) (c0 : Nat) (ho : c0 + 4 ≤ x.cfg.maxOps)
    (hm : Roomy x.cfg 321) (k : Nat) (pre : Bytes)
    (prelen : pre.length ≤ 1000) :
    ∃ m, machineRun x (k + 6) (atP pre (payToAddress h) pre.length) (machineAt x.cfg [pub, sig] c0) =
      some (.ret (if g = h then
        verdict (d.verifySig sig pub (cleanupScriptCode (payToAddress h) sig) x.cfg.flags)
        else .ofError .equalVerify), m) := by
  generalize hr : d.verifySig sig pub (cleanupScriptCode (payToAddress h) sig) x.cfg.flags = r
  obtain ⟨pl, cl⟩ := mem_payToAddress hh x.cfg
  have wl := payToAddress_write hh
  have us : ∀ b : Bytes, ∀ s, usage (b :: s) = b.length + 32 + usage s := by
    intro b s; rw [usage_cons]
  have u0 : usage [] = 0 := rfl
  have fit : ∀ s : List Bytes, usage s ≤ 321 → s.length ≤ 4 → (∀ b ∈ s, b.length ≤ 75) → Fits x.cfg s [] :=
    fun s h1 h2 h3 => fits_roomy hm s h1 (by omega) (fun b hb => by have := h3 b hb; omega)
  have f2 : Fits x.cfg [pub, sig] [] := fit _ (by simp only [us, u0]; omega) (by simp) (by simp; omega)
  have f3 : Fits x.cfg [pub, pub, sig] [] := fit _ (by simp only [us, u0]; omega) (by simp) (by simp; omega)
  have f3' : Fits x.cfg [g, pub, sig] [] := fit _ (by simp only [us, u0]; omega) (by simp) (by simp; omega)
  have f4 : Fits x.cfg [h, g, pub, sig] [] := fit _ (by simp only [us, u0]; omega) (by simp) (by simp; omega)
  generalize hs1 : pre.length = sep
  have w1 : (Instr.mk 0x76 []).write = [0x76] := writes_op _ (by decide)
  have w2 : (Instr.mk 0xa9 []).write = [0xa9] := writes_op _ (by decide)
  have w3 : (Instr.push h).write = UInt8.ofNat h.length :: h := push_write_length (by omega) (by omega)
  have w4 : (Instr.mk 0x88 []).write = [0x88] := writes_op _ (by decide)
  have w5 : (Instr.mk 0xac []).write = [0xac] := writes_op _ (by decide)
  have lens : ∀ (a : Bytes) (q : Program), (a ++ q.flatMap Instr.write) = pre ++ (payToAddress h).flatMap Instr.write →
      (a ++ q.flatMap Instr.write).length < 2 ^ 31 := by
    intro a q he
    rw [he, wl]; simp [hh]; omega
  -- DUP
  have s1 : step x (atP pre (payToAddress h) sep) (machineAt x.cfg [pub, sig] c0) =
      .ok () (machineAt x.cfg [pub, pub, sig] (c0 + 1)) := by
    rw [step_counted x _ 0x76 _ c0 w1 (by decide) (by omega)]
    have := ((C23_dup x (atP pre (payToAddress h) sep) (machineAt x.cfg [pub, sig] (c0 + 1)) (machineAt_wf f2 (c0 + 1))).2
      [pub, pub, sig] [] rfl).1 f3
    rw [this, machineAt_withStacks]
  rw [show payToAddress h = ⟨0x76, []⟩ :: [⟨0xa9, []⟩, Instr.push h, ⟨0x88, []⟩, ⟨0xac, []⟩] from rfl] at s1 ⊢
  rw [run_ok (i := ⟨0x76, []⟩) s1 cl (lens _ _ rfl) (k + 5), w1]
  rw [if_neg (by decide)]
  -- HASH160
  have s2 : step x (atP (pre ++ [0x76]) [⟨0xa9, []⟩, Instr.push h, ⟨0x88, []⟩, ⟨0xac, []⟩] sep)
      (machineAt x.cfg [pub, pub, sig] (c0 + 1)) = .ok () (machineAt x.cfg [g, pub, sig] (c0 + 2)) := by
    rw [step_counted x _ 0xa9 _ (c0 + 1) w2 (by decide) (by omega)]
    rw [show ∀ ctr, execOp x ctr 0xa9 = opHash x.hash x.cfg .hash160 from fun _ => rfl]
    unfold opHash
    rw [need_bind_pass (by simp [machineAt])]
    exact modifyTop_at (by rw [hash]) f3'
  rw [run_ok (i := ⟨0xa9, []⟩) s2 (fun j hj => cl j (by simp [payToAddress] at hj ⊢; tauto))
    (lens _ _ (by simp [payToAddress, w1])) (k + 4), w2]
  rw [if_neg (by decide)]
  -- push
  have s3 : step x (atP (pre ++ [0x76] ++ [0xa9]) [Instr.push h, ⟨0x88, []⟩, ⟨0xac, []⟩] sep)
      (machineAt x.cfg [g, pub, sig] (c0 + 2)) = .ok () (machineAt x.cfg [h, g, pub, sig] (c0 + 2)) := by
    have := step_pushes x (atP (pre ++ [0x76] ++ [0xa9]) [Instr.push h, ⟨0x88, []⟩, ⟨0xac, []⟩] sep) (Instr.push h)
      (machineAt x.cfg [g, pub, sig] (c0 + 2)) rfl (push_isPush (by omega) (by omega)) (push_carriable _ (by omega))
      (machineAt_wf f3' (c0 + 2)) (by simp [machineAt]) (by rw [push_pushData _ (by omega)]; exact f4)
    rw [push_pushData _ (by omega)] at this
    rw [this]
    exact congrArg _ (machineAt_withStacks x.cfg _ _ (c0 + 2))
  rw [run_ok (i := Instr.push h) s3 (fun j hj => cl j (by simp [payToAddress] at hj ⊢; tauto))
    (lens _ _ (by simp [payToAddress, w1, w2])) (k + 3), w3]
  rw [if_neg (by rw [hh, List.head?_cons]; decide)]
  -- EQUALVERIFY
  by_cases hgh : g = h
  swap
  · rw [if_neg hgh]
    have s4 := step_counted x (atP (pre ++ [0x76] ++ [0xa9] ++ UInt8.ofNat h.length :: h) [⟨0x88, []⟩, ⟨0xac, []⟩] sep)
      0x88 [h, g, pub, sig] (c0 + 2) w4 (by decide) (by omega)
    obtain ⟨m, hm⟩ := equalverify_differ x
      (atP (pre ++ [0x76] ++ [0xa9] ++ UInt8.ofNat h.length :: h) [⟨0x88, []⟩, ⟨0xac, []⟩] sep)
      (machineAt x.cfg [h, g, pub, sig] (c0 + 3)) (machineAt_wf f4 (c0 + 3)) g h [pub, sig] rfl hgh
    rw [hm] at s4
    rw [run_stop s4 (k + 2)]
    exact ⟨m, rfl⟩
  rw [if_pos hgh]
  subst hgh
  have s4 : step x (atP (pre ++ [0x76] ++ [0xa9] ++ UInt8.ofNat g.length :: g) [⟨0x88, []⟩, ⟨0xac, []⟩] sep)
      (machineAt x.cfg [g, g, pub, sig] (c0 + 2)) = .ok () (machineAt x.cfg [pub, sig] (c0 + 3)) := by
    rw [step_counted x _ 0x88 _ (c0 + 2) w4 (by decide) (by omega)]
    rw [C21_equalverify x _ (machineAt x.cfg [g, g, pub, sig] (c0 + 3)) (machineAt_wf f4 (c0 + 3)) g [pub, sig] rfl]
    exact congrArg _ (machineAt_withStacks x.cfg _ _ (c0 + 3))
  rw [run_ok (i := ⟨0x88, []⟩) s4 (fun j hj => cl j (by simp [payToAddress] at hj ⊢; tauto))
    (lens _ _ (by simp [payToAddress, w1, w2, w3])) (k + 2), w4]
  rw [if_neg (by decide)]
  -- CHECKSIG
  have code : (atP (pre ++ [0x76] ++ [0xa9] ++ UInt8.ofNat g.length :: g ++ [0x88]) [⟨0xac, []⟩] sep).toLastCodeSeparator =
      .ok (payToAddress g) := by
    have := toLastSep pre (payToAddress g) [⟨0x76, []⟩, ⟨0xa9, []⟩, Instr.push g, ⟨0x88, []⟩] [⟨0xac, []⟩] rfl pl cl
    rw [hs1] at this
    rw [← this]
    simp [w1, w2, w3, w4]
  have s5 := step_counted x (atP (pre ++ [0x76] ++ [0xa9] ++ UInt8.ofNat g.length :: g ++ [0x88]) [⟨0xac, []⟩] sep)
    0xac [pub, sig] (c0 + 3) w5 (by decide) (by omega)
  rw [checkSig_at x _ d hd (payToAddress g) code sig pub (c0 + 4) f2] at s5
  simp only at s5
  rw [hr] at s5
  unfold verdict
  by_cases he : r.error = .ok
  · rw [if_neg (not_not.mpr he)] at s5
    rw [run_ok (i := ⟨0xac, []⟩) s5 (fun j hj => cl j (by simp [payToAddress] at hj ⊢; tauto))
      (lens _ _ (by simp [payToAddress, w1, w2, w3, w4])) (k + 1)]
    rw [run_stop (end_at x _ rfl r.success (c0 + 4)) k, if_pos he]
    exact ⟨_, rfl⟩
  · rw [if_pos he] at s5
    rw [run_stop s5 (k + 1), if_neg he]
    exact ⟨_, rfl⟩

theorem pay_to_address (x : Env) (d : Doc) (hd : x.doc = some d) (sig pub h ux lx : Bytes)
    (hsig : 2 ≤ sig.length ∧ sig.length ≤ 75) (hpub : 2 ≤ pub.length ∧ pub.length ≤ 75) (hh : h.length = 20)
    (hg : (x.hash .hash160 pub).length = 20) (hu : compile (redeemAddress sig pub) = .ok ux)
    (hl : compile (payToAddress h) = .ok lx) (ho : 5 ≤ x.cfg.maxOps) (hm : Roomy x.cfg 321) (n : Nat) (hn : 9 ≤ n) :
    evaluate x n ux lx =
      .done (if x.hash .hash160 pub = h then
        verdict (d.verifySig sig pub (cleanupScriptCode (payToAddress h) sig) x.cfg.flags)
        else .ofError .equalVerify) := by
  obtain ⟨pl, cl⟩ := mem_payToAddress hh x.cfg
  have pu : ∀ i ∈ redeemAddress sig pub, Plain x.cfg i := by
    intro i hi
    simp only [redeemAddress, List.mem_cons, List.not_mem_nil, or_false] at hi
    rcases hi with rfl | rfl
    · exact plain_push hsig.1 hsig.2
    · exact plain_push hpub.1 hpub.2
  have cu : ∀ i ∈ redeemAddress sig pub, i.Carriable := by
    intro i hi
    simp only [redeemAddress, List.mem_cons, List.not_mem_nil, or_false] at hi
    rcases hi with rfl | rfl
    · exact push_carriable _ (by omega)
    · exact push_carriable _ (by omega)
  have wu : (redeemAddress sig pub).flatMap Instr.write =
      UInt8.ofNat sig.length :: sig ++ UInt8.ofNat pub.length :: pub := by
    simp [redeemAddress, push_write_length hsig.1 hsig.2, push_write_length hpub.1 hpub.2]
  rw [compile_ok _ cu (flatMap_data_lt _ cu (by rw [wu]; simp; omega))] at hu
  rw [payToAddress_compile hh] at hl
  cases hu
  have hl' : (payToAddress h).flatMap Instr.write = lx := by rw [payToAddress_write hh]; cases hl; rfl
  rw [← hl']
  have isPush' : isPushProgram (redeemAddress sig pub) = true := by
    simp [isPushProgram, redeemAddress, push_isPush hsig.1 hsig.2, push_isPush hpub.1 hpub.2]
  have notSH : isP2SH (payToAddress h) = .ok false := by
    unfold isP2SH
    rw [payToAddress_compile hh]
    simp [Except.map, isP2SHBytes, hh]
  have vals : (redeemAddress sig pub).map Instr.pushData = [sig, pub] := by
    simp [redeemAddress, push_pushData _ (show sig.length < 2 ^ 31 by omega),
      push_pushData _ (show pub.length < 2 ^ 31 by omega)]
  have us : ∀ b : Bytes, ∀ s, usage (b :: s) = b.length + 32 + usage s := by
    intro b s; rw [usage_cons]
  have u0 : usage [] = 0 := rfl
  have fit : ∀ s : List Bytes, usage s ≤ 321 → s.length ≤ 4 → (∀ b ∈ s, b.length ≤ 75) → Fits x.cfg s [] :=
    fun s h1 h2 h3 => fits_roomy hm s h1 (by omega) (fun b hb => by have := h3 b hb; omega)
  have f2 : Fits x.cfg [pub, sig] [] := fit _ (by simp only [us, u0]; omega) (by simp) (by simp; omega)
  obtain ⟨k, rfl⟩ : ∃ k, n = (redeemAddress sig pub).length + ((k + 6) + 1) := ⟨n - 9, by simp [redeemAddress]; omega⟩
  have wl := payToAddress_write hh
  have hlen : 2 * ((redeemAddress sig pub).flatMap Instr.write).length +
      ((payToAddress h).flatMap Instr.write).length + 2 < 2 ^ 31 := by
    rw [wu, wl]; simp [hh]; omega
  rw [evaluate_plain pu pl cu cl isPush' notSH hlen (by rw [vals]; exact f2) (by omega)]
  rw [vals, machineAt_start]
  obtain ⟨m, hr⟩ := run_payToAddress x d hd sig pub h hsig hpub hh _ hg rfl 1 (by omega) hm k
    ((redeemAddress sig pub).flatMap Instr.write ++ [0xab]) (by rw [wu]; simp; omega)
  rw [show ([sig, pub] : List Bytes).reverse = [pub, sig] from rfl, hr]
  rfl

/-- **C78**: an output paying to the hash of a key, and the input script made from
a signature and that key: evaluation gives the verdict of the signature check on
them, with the output script as the script code. -/
theorem C78_pay_to_address (x : Env) (d : Doc) (hd : x.doc = some d) (sig pub ux lx : Bytes)
    (hsig : 2 ≤ sig.length ∧ sig.length ≤ 75) (hpub : 2 ≤ pub.length ∧ pub.length ≤ 75)
    (hh : (x.hash .hash160 pub).length = 20) (hu : compile (redeemAddress sig pub) = .ok ux)
    (hl : compile (payToAddress (x.hash .hash160 pub)) = .ok lx) (ho : 5 ≤ x.cfg.maxOps) (hm : Roomy x.cfg 321)
    (n : Nat) (hn : 9 ≤ n) :
    evaluate x n ux lx = .done (verdict (d.verifySig sig pub
      (cleanupScriptCode (payToAddress (x.hash .hash160 pub)) sig) x.cfg.flags)) := by
  rw [pay_to_address x d hd sig pub _ ux lx hsig hpub hh hh hu hl ho hm n hn, if_pos rfl]

/-- **C78**: no signature whatever redeems the output together with a key that has
another hash. -/
theorem C78_other_key_refused (x : Env) (d : Doc) (hd : x.doc = some d) (sig pub h ux lx : Bytes)
    (hsig : 2 ≤ sig.length ∧ sig.length ≤ 75) (hpub : 2 ≤ pub.length ∧ pub.length ≤ 75) (hh : h.length = 20)
    (hg : (x.hash .hash160 pub).length = 20) (hne : x.hash .hash160 pub ≠ h)
    (hu : compile (redeemAddress sig pub) = .ok ux) (hl : compile (payToAddress h) = .ok lx)
    (ho : 5 ≤ x.cfg.maxOps) (hm : Roomy x.cfg 321) (n : Nat) (hn : 9 ≤ n) :
    evaluate x n ux lx = .done ⟨.equalVerify, false⟩ := by
  rw [pay_to_address x d hd sig pub h ux lx hsig hpub hh hg hu hl ho hm n hn, if_neg hne]
  rfl

theorem payToPubkey_write {pub : Bytes} (h : 2 ≤ pub.length ∧ pub.length ≤ 75) :
    (payToPubkey pub).flatMap Instr.write = UInt8.ofNat pub.length :: pub ++ [0xac] := by
  simp [payToPubkey, push_write_length h.1 h.2, writes_op]

theorem mem_payToPubkey {pub : Bytes} (h : 2 ≤ pub.length ∧ pub.length ≤ 75) (c : Cfg) :
    (∀ i ∈ payToPubkey pub, Plain c i) ∧ ∀ i ∈ payToPubkey pub, i.Carriable := by
  constructor
  · intro i hi
    simp only [payToPubkey, List.mem_cons, List.not_mem_nil, or_false] at hi
    rcases hi with rfl | rfl
    · exact plain_push h.1 h.2
    · exact plain_op _ (by simp)
  · intro i hi
    simp only [payToPubkey, List.mem_cons, List.not_mem_nil, or_false] at hi
    rcases hi with rfl | rfl
    · exact push_carriable _ (by omega)
    · exact op_carriable _ (by decide)

theorem run_payToPubkey (x : Env) (d : Doc) (hd : x.doc = some d) (sig pub : Bytes)
    (hsig : 2 ≤ sig.length ∧ sig.length ≤ 75) (hpub : 2 ≤ pub.length ∧ pub.length ≤ 75)
    (ho : 2 ≤ x.cfg.maxOps) (hm : Roomy x.cfg 214) (k : Nat) (pre : Bytes) (prelen : pre.length ≤ 1000) :
    ∃ m, machineRun x (k + 3) (atP pre (payToPubkey pub) pre.length) (machineAt x.cfg [sig] 1) =
      some (.ret (verdict (d.verifySig sig pub (cleanupScriptCode (payToPubkey pub) sig) x.cfg.flags)), m) := by
  generalize hr : d.verifySig sig pub (cleanupScriptCode (payToPubkey pub) sig) x.cfg.flags = r
  obtain ⟨pl, cl⟩ := mem_payToPubkey hpub x.cfg
  have wl := payToPubkey_write hpub
  have us : ∀ b : Bytes, ∀ s, usage (b :: s) = b.length + 32 + usage s := by
    intro b s; rw [usage_cons]
  have u0 : usage [] = 0 := rfl
  have f1 : Fits x.cfg [sig] [] := fits_roomy hm _ (by simp only [us, u0]; omega) (by simp) (by simp; omega)
  have f2 : Fits x.cfg [pub, sig] [] := fits_roomy hm _ (by simp only [us, u0]; omega) (by simp) (by simp; omega)
  generalize hs1 : pre.length = sep
  have w1 : (Instr.push pub).write = UInt8.ofNat pub.length :: pub := push_write_length hpub.1 hpub.2
  have w2 : (Instr.mk 0xac []).write = [0xac] := writes_op _ (by decide)
  have lens : ∀ (a : Bytes) (q : Program), (a ++ q.flatMap Instr.write) = pre ++ (payToPubkey pub).flatMap Instr.write →
      (a ++ q.flatMap Instr.write).length < 2 ^ 31 := by
    intro a q he
    rw [he, wl]; simp; omega
  have s1 : step x (atP pre [Instr.push pub, ⟨0xac, []⟩] sep) (machineAt x.cfg [sig] 1) =
      .ok () (machineAt x.cfg [pub, sig] 1) := by
    have := step_pushes x (atP pre [Instr.push pub, ⟨0xac, []⟩] sep) (Instr.push pub)
      (machineAt x.cfg [sig] 1) rfl (push_isPush hpub.1 hpub.2) (push_carriable _ (by omega))
      (machineAt_wf f1 1) (by simp [machineAt]) (by rw [push_pushData _ (by omega)]; exact f2)
    rw [push_pushData _ (by omega)] at this
    rw [this]
    exact congrArg _ (machineAt_withStacks x.cfg _ _ 1)
  have code : (atP (pre ++ UInt8.ofNat pub.length :: pub) [⟨0xac, []⟩] sep).toLastCodeSeparator =
      .ok (payToPubkey pub) := by
    have := toLastSep pre (payToPubkey pub) [Instr.push pub] [⟨0xac, []⟩] rfl pl cl
    rw [hs1] at this
    rw [← this]
    simp [w1]
  have s5 := step_counted x (atP (pre ++ UInt8.ofNat pub.length :: pub) [⟨0xac, []⟩] sep)
    0xac [pub, sig] 1 w2 (by decide) (by omega)
  rw [checkSig_at x _ d hd (payToPubkey pub) code sig pub 2 f2] at s5
  simp only at s5
  rw [hr] at s5
  rw [show payToPubkey pub = Instr.push pub :: [⟨0xac, []⟩] from rfl]
  have hhead : ¬ (Instr.push pub).write.head? = some 0xab := by
    rw [w1, List.head?_cons]
    have : (UInt8.ofNat pub.length).toNat = pub.length := by simp; omega
    intro h
    have := congrArg UInt8.toNat (Option.some.inj h)
    simp at this
    omega
  rw [run_ok (i := Instr.push pub) s1 cl (lens _ _ rfl) (k + 2), if_neg hhead, w1]
  unfold verdict
  by_cases he : r.error = .ok
  · rw [if_neg (not_not.mpr he)] at s5
    rw [run_ok (i := ⟨0xac, []⟩) s5 (fun j hj => cl j (by simp [payToPubkey] at hj ⊢; tauto))
      (lens _ _ (by simp [payToPubkey, w1])) (k + 1)]
    rw [run_stop (end_at x _ rfl r.success 2) k, if_pos he]
    exact ⟨_, rfl⟩
  · rw [if_pos he] at s5
    rw [run_stop s5 (k + 1), if_neg he]
    exact ⟨_, rfl⟩

/-- **C78**: the same for an output paying to a public key and the input script made
from a signature. -/
theorem C78_pay_to_pubkey (x : Env) (d : Doc) (hd : x.doc = some d) (sig pub ux lx : Bytes)
    (hsig : 2 ≤ sig.length ∧ sig.length ≤ 75) (hpub : 2 ≤ pub.length ∧ pub.length ≤ 75)
    (hu : compile (redeemPubkey sig) = .ok ux) (hl : compile (payToPubkey pub) = .ok lx)
    (ho : 2 ≤ x.cfg.maxOps) (hm : Roomy x.cfg 214) (n : Nat) (hn : 5 ≤ n) :
    evaluate x n ux lx =
      .done (verdict (d.verifySig sig pub (cleanupScriptCode (payToPubkey pub) sig) x.cfg.flags)) := by
  obtain ⟨pl, cl⟩ := mem_payToPubkey hpub x.cfg
  have pu : ∀ i ∈ redeemPubkey sig, Plain x.cfg i := by
    intro i hi
    simp only [redeemPubkey, List.mem_cons, List.not_mem_nil, or_false] at hi
    subst hi
    exact plain_push hsig.1 hsig.2
  have cu : ∀ i ∈ redeemPubkey sig, i.Carriable := by
    intro i hi
    simp only [redeemPubkey, List.mem_cons, List.not_mem_nil, or_false] at hi
    subst hi
    exact push_carriable _ (by omega)
  have wu : (redeemPubkey sig).flatMap Instr.write = UInt8.ofNat sig.length :: sig := by
    simp [redeemPubkey, push_write_length hsig.1 hsig.2]
  have wl := payToPubkey_write hpub
  rw [compile_ok _ cu (flatMap_data_lt _ cu (by rw [wu]; simp; omega))] at hu
  rw [compile_ok _ cl (flatMap_data_lt _ cl (by rw [wl]; simp; omega))] at hl
  have notSH : isP2SH (payToPubkey pub) = .ok false := by
    unfold isP2SH
    rw [compile_ok _ cl (flatMap_data_lt _ cl (by rw [wl]; simp; omega)), wl]
    simp only [Except.map, Except.ok.injEq]
    unfold isP2SHBytes
    have hne : UInt8.ofNat pub.length ≠ 0xa9 := by
      have e : (UInt8.ofNat pub.length).toNat = pub.length := by simp; omega
      intro h
      have := congrArg UInt8.toNat h
      rw [e] at this
      simp at this
      omega
    simp [hne]
  cases hu
  cases hl
  have isPush' : isPushProgram (redeemPubkey sig) = true := by
    simp [isPushProgram, redeemPubkey, push_isPush hsig.1 hsig.2]
  have vals : (redeemPubkey sig).map Instr.pushData = [sig] := by
    simp [redeemPubkey, push_pushData _ (show sig.length < 2 ^ 31 by omega)]
  have f1 : Fits x.cfg [sig] [] := fits_roomy hm _ (by rw [usage_cons]; have : usage [] = 0 := rfl; omega)
    (by simp) (by simp; omega)
  obtain ⟨k, rfl⟩ : ∃ k, n = (redeemPubkey sig).length + ((k + 3) + 1) := ⟨n - 5, by simp [redeemPubkey]; omega⟩
  have hlen : 2 * ((redeemPubkey sig).flatMap Instr.write).length +
      ((payToPubkey pub).flatMap Instr.write).length + 2 < 2 ^ 31 := by
    rw [wu, wl]; simp; omega
  rw [evaluate_plain pu pl cu cl isPush' notSH hlen (by rw [vals]; exact f1) (by omega)]
  rw [vals, machineAt_start]
  obtain ⟨m, hr⟩ := run_payToPubkey x d hd sig pub hsig hpub ho hm k
    ((redeemPubkey sig).flatMap Instr.write ++ [0xab]) (by rw [wu]; simp; omega)
  rw [show ([sig] : List Bytes).reverse = [sig] from rfl, hr]
  rfl

end Verif.Script
