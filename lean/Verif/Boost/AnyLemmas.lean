import Verif.Boost.ExecProps
import Verif.Script.OutcomeProps

/-
Running a Boost output script on any stack whatever.
-/

namespace Verif.Boost

open Verif Script Work SM

variable {x : Env} {pre : Bytes} {l q : Program} {s a : List Bytes} {Q : Prop}

/-! ### Instructions without enough to work on -/

theorem Fails.performs {o : Op} {e : ScriptError}
    {spec : List Bytes → List Bytes → Option (List Bytes × List Bytes)} (h : 0x60 < o)
    (hp : ∀ ctr, Performs x.cfg (execOp x ctr o) e spec) (hs : spec s a = none) (hf : Fits x.cfg s a) : Fails x (op o) s a := by
  refine Fails.of h fun ctr k => ?_
  exact ⟨_, _, _, (hp ctr (mAt x.cfg s a k) (mAt_wf hf k)).1 hs, rfl, by simp [Result.verified, Result.ofError]⟩

theorem fl_dup (hf : Fits x.cfg [] a) : Fails x (op 0x76) [] a := .performs (by decide) (C23_dup x) rfl hf

theorem fl_swap {b : Bytes} (hf : Fits x.cfg [b] a) : Fails x (op 0x7c) [b] a := .performs (by decide) (C23_swap x) rfl hf

theorem fl_roll {k : Nat} (hs : s.length ≤ k) (hne : s ≠ []) (hk : Num x.cfg k) (hb : s.length < 2 ^ 31)
    (hf : Fits x.cfg (numEnc k :: s) a) : Fails x (op 0x7a) (numEnc k :: s) a := by
  refine Fails.of (by decide) fun ctr j => ?_
  obtain ⟨m', h⟩ := ((C23_pick_roll_partial x ctr _ (mAt_wf hf j) (numEnc k) s rfl hk (fun _ => isMinimalNum_numEnc _) hne
    (numEnc_not_negative_zero _) hb).1 (.inr (by rw [numVal_numEnc]; omega))).2
  exact ⟨_, m', _, h, rfl, rfl⟩

theorem L_roll_none {k : Nat} (w : Wide x) (h1 : 1 ≤ k) (h2 : k ≤ 16) (hs : s.length ≤ k) (hne : s ≠ [])
    (hr : Room x s a) (hQ : ¬ Q) : Leads x pre l (op (0x50 + UInt8.ofNat k) :: op 0x7a :: q) s a Q :=
  L_num w h1 h2 hr (Leads.stop (fun hf => fl_roll hs hne (w.small (by omega)) (by omega) hf) hQ)

theorem fl_checksig {b : Bytes} : Fails x (op 0xac) [b] a := by
  refine Fails.of (by decide) fun ctr k => ?_
  refine ⟨.ret (.ofError .invalidStackOperation), mAt x.cfg [b] a k, _, ?_, rfl, rfl⟩
  rw [show execOp x ctr 0xac = opCheckSig x.cfg x.doc ctr false from rfl]
  unfold opCheckSig
  rw [need_bind_fail (by simp [mAt])]

/-! ### The end -/

theorem checkSig_any (x : Env) (w : Wide x) (ctr : Counter) (d : Doc) (hd : x.doc = some d) (p : Program)
    (hp : ctr.toLastCodeSeparator = .ok p) (sig pub : Bytes) (bot : List Bytes) (k : Nat) (hf : Fits x.cfg (pub :: sig :: bot) []) :
    execOp x ctr 0xac (mAt x.cfg (pub :: sig :: bot) [] k) =
      let r := d.verifySig sig pub (cleanupScriptCode p sig) x.cfg.flags
      if r.error ≠ .ok then .stop (.ret (.ofError r.error)) (mAt x.cfg (pub :: sig :: bot) [] k)
      else .ok () (mAt x.cfg (numBool r.success :: bot) [] k) := by
  have hfb : ∀ b, Fits x.cfg (numBool b :: bot) [] := by
    intro b
    rw [w.fits] at hf ⊢
    have : (numBool b).length ≤ 1 := by cases b <;> decide
    simp only [usage_cons] at hf ⊢
    omega
  rw [show execOp x ctr 0xac = opCheckSig x.cfg x.doc ctr false from rfl]
  generalize hr : d.verifySig sig pub (cleanupScriptCode p sig) x.cfg.flags = r
  have hres : checkSigResult x.cfg x.doc ctr sig pub (mAt x.cfg (pub :: sig :: bot) [] k) =
      .ok r (mAt x.cfg (pub :: sig :: bot) [] k) := by
    unfold checkSigResult
    rw [hd]
    simp only
    rw [SM.bind_def]
    unfold scriptCode
    rw [hp]
    simp only [SM.pure_def', hr]
  generalize x.cfg = c at *
  unfold opCheckSig
  have hw := mAt_wf hf k
  rw [need_bind_pass (by simp [mAt]), top_bind (-2) 1 (by omega) (by rfl),
    top_bind (-1) 0 (by omega) (by rfl), SM.bind_def, hres]
  simp only
  by_cases he : r.error = .ok
  · rw [failIf_bind_pass (by simp [he])]
    rw [pop_bind hw rfl]
    rw [pop_bind (wf_pop hw rfl) rfl]
    have h2 := wf_pop (wf_pop hw rfl) (show (withStacks c (mAt c (pub :: sig :: bot) [] k) (sig :: bot) _).stack = sig :: bot from rfl)
    refine ((push_bind h2 (numBool r.success) _).1 (hfb r.success)).trans ?_
    rw [if_neg (not_not.mpr he)]
    simp only [withStacks_withStacks]
    exact congrArg (Res.ok ()) (mAt_with c _ _ _ _ k)
  · rw [if_pos he, failIf_bind_fail he]

/-- Checking the signature and ending, whatever lies below. -/
theorem Leads.checksig_any {pub sig : Bytes} {bot : List Bytes} {d : Doc} (w : Wide x) (hd : x.doc = some d)
    (hp : ∀ i ∈ l, Plain x.cfg i) :
    Leads x pre l [op 0xac] (pub :: sig :: bot) []
      ((verdict (d.verifySig sig pub (cleanupScriptCode l sig) x.cfg.flags)).verified = true ∧ (x.cfg.cleanStack = true → bot = [])) := by
  intro done k n hdone hc hl hk hn hfit
  simp only [List.length_cons, List.length_nil] at hk hn
  obtain ⟨n', rfl⟩ : ∃ n', n = n' + 2 := ⟨n - 2, by omega⟩
  generalize hr : d.verifySig sig pub (cleanupScriptCode l sig) x.cfg.flags = r
  have hs : step x (atP (pre ++ done.flatMap Instr.write) [op 0xac] pre.length) (mAt x.cfg (pub :: sig :: bot) [] k) =
      if r.error ≠ .ok then .stop (.ret (.ofError r.error)) (mAt x.cfg (pub :: sig :: bot) [] (k + 1))
      else .ok () (mAt x.cfg (numBool r.success :: bot) [] (k + 1)) := by
    rw [op_step (o := 0xac) (by decide) rfl (by omega),
      checkSig_any x w _ d hd l (toLastSep pre l done [op 0xac] hdone.symm hp hc) sig pub bot (k + 1) hfit]
    simp only [hr]
  have e : pre ++ done.flatMap Instr.write ++ [op 0xac].flatMap Instr.write = pre ++ l.flatMap Instr.write := by
    rw [← hdone, List.flatMap_append, List.append_assoc]
  by_cases he : r.error = .ok
  · rw [if_neg (not_not.mpr he)] at hs
    rw [run_ok hs (fun j hj => hc j (by rw [← hdone]; exact List.mem_append.mpr (.inr hj))) (by rw [e]; exact hl)]
    generalize hctr : atP (pre ++ done.flatMap Instr.write ++ (op 0xac).write) [] _ = ctr
    have hnx : ctr.next = [] := by rw [← hctr]; rfl
    have hst : step x ctr (mAt x.cfg (numBool r.success :: bot) [] (k + 1)) = endOfScript x.cfg (mAt x.cfg (numBool r.success :: bot) [] (k + 1)) := by
      unfold step
      rw [hnx]
    obtain ⟨r', m', hend⟩ := endOfScript_stops x.cfg (mAt x.cfg (numBool r.success :: bot) [] (k + 1))
    rw [← hst] at hend
    refine ⟨_, _, _, run_stop hend n', rfl, ?_⟩
    have hwin := step_wins x ctr (mAt x.cfg (numBool r.success :: bot) [] (k + 1))
    constructor
    · intro hv
      have hwn := hwin.mp ⟨r', m', hend, hv⟩
      cases hwn with
      | byReturn rest hc' => rw [hnx] at hc'; cases hc'
      | bySigVerify o rest hc' => rw [hnx] at hc'; cases hc'
      | atEnd b s' hc' hs' hb hl' =>
        have hs' : numBool r.success :: bot = b :: s' := hs'
        injection hs' with h1 h2
        refine ⟨?_, fun hcl => by rw [h2]; exact hl' hcl⟩
        rw [← h1] at hb
        cases hsu : r.success with
        | false => rw [hsu] at hb; exact absurd (by decide) hb
        | true => simp [verdict, he, hsu, Result.verified]
    · rintro ⟨h1, h2⟩
      have hsu : r.success = true := by simpa [verdict, he, Result.verified] using h1
      obtain ⟨r2, m2, e1, e2⟩ := hwin.mpr (.atEnd (numBool r.success) bot hnx rfl (by rw [hsu]; decide) h2)
      rw [hend] at e1
      injection e1 with e1 _
      injection e1 with e1
      rw [e1]; exact e2
  · rw [if_pos he] at hs
    refine ⟨_, _, _, run_stop hs (n' + 1), rfl, ?_⟩
    simp [verdict, he, Result.verified, Result.ofError]

/-! ### The operations -/

/-- What the last operations demand of key and signature. -/
def SignedOK (x : Env) (d : Doc) (l : Program) (h : Bytes) (s : List Bytes) : Prop :=
  ∃ pub sig bot, s = pub :: sig :: bot ∧ x.hash .hash160 pub = h ∧
    (verdict (d.verifySig sig pub (cleanupScriptCode l sig) x.cfg.flags)).verified = true ∧ (x.cfg.cleanStack = true → bot = [])

theorem any_sig {d : Doc} {h : Bytes} (w : Wide x) (hd : x.doc = some d) (hp : ∀ i ∈ l, Plain x.cfg i)
    (hr : 2 * usage s + h.length + 1000 ≤ x.cfg.maxMem) :
    Leads x pre l [op 0x76, op 0xa9, op 0x6c, op 0x88, op 0xac] s [h] (SignedOK x d l h s) := by
  cases s with
  | nil => exact Leads.stop (fun hf => fl_dup hf) (by rintro ⟨_, _, _, h, _⟩; cases h)
  | cons pub s =>
    rw [usage_cons] at hr
    refine L_dup w (by room w) ?_
    refine L_hash160 w (by room w) ?_
    refine L_fromalt w (by room w) ?_
    by_cases hh : x.hash .hash160 pub = h
    · subst hh
      refine Leads.cons (by decide) (fun hf => st_equalverify hf) (Room.fits w (by room w)) ?_
      cases s with
      | nil => exact Leads.stop (fun _ => fl_checksig) (by rintro ⟨_, _, _, h, _⟩; cases h)
      | cons sig bot =>
        refine (Leads.checksig_any w hd hp).iff ⟨fun hv => ⟨pub, sig, bot, rfl, rfl, hv⟩, ?_⟩
        rintro ⟨pub', sig', bot', e, _, hv⟩
        cases e
        exact hv
    · refine Leads.stop (fun hf => fl_equalverify hh hf) ?_
      rintro ⟨pub', sig', bot', e, h', _⟩
      cases e
      exact hh h'

/-- What the operations from the nonce on demand. -/
def NonceOK (x : Env) (d : Doc) (l : Program) (h : Bytes) (t : Compact) (acc : Bytes) (s : List Bytes) : Prop :=
  ∃ nonce s', s = nonce :: s' ∧ nonce.length = 4 ∧ 3 ≤ t.exponent ∧ t.exponent ≤ 32 ∧
    leNat (x.hash .hash256 (acc ++ nonce)) < expand t ∧ SignedOK x d l h s'

theorem any_nonce {d : Doc} {h acc : Bytes} {t : Compact} (w : Wide x) (hd : x.doc = some d) (hp : ∀ i ∈ l, Plain x.cfg i)
    (hs : usage s < 2 ^ 31) (hr : 2 * usage s + acc.length + h.length + 1000 ≤ x.cfg.maxMem) :
    Leads x pre l ([op 0x7c, op 0x82, op 0x54, op 0x88, op 0x7e, op 0xaa] ++ (ensurePositive ++
      ([op 0x6c] ++ (expandTarget ++ (ensurePositive ++ [op 0x9f, op 0x69, op 0x76, op 0xa9, op 0x6c, op 0x88, op 0xac])))))
      (acc :: s) [wfix 4 t, h] (NonceOK x d l h t acc s) := by
  simp only [List.cons_append, List.nil_append]
  cases s with
  | nil => exact Leads.stop (fun hf => fl_swap hf) (by rintro ⟨_, _, h, _⟩; cases h)
  | cons nonce s =>
    rw [usage_cons] at hr hs
    refine L_swap w (by room w) ?_
    refine L_size (k := 4) w (by decide) (by decide) (by omega) (by room w) (fun h' hc => ?_) fun e2 => ?_
    · obtain ⟨_, _, e, h4, _⟩ := hc
      cases e
      exact h' h4
    refine L_cat w (by room w) ?_
    refine L_hash256 w (by room w) ?_
    have hl := w.hash (acc ++ nonce)
    have hlt := leNat_lt (x.hash .hash256 (acc ++ nonce))
    rw [hl] at hlt
    refine L_positive w (by omega) (by room w) ?_
    have nl := numEnc_length_nat hlt
    refine L_fromalt w (by room w) ?_
    refine L_expand w (by room w) (fun hn hc => ?_) fun g1 g2 g3 => ?_
    · obtain ⟨_, _, e, _, k1, k2, k3, _⟩ := hc
      refine hn ⟨k1, k2, Decidable.byContradiction fun hh => ?_⟩
      exact expand_not_pos hh _ k3
    have el := expandedBytes_length g2
    have elt := leNat_lt (expandedBytes t)
    rw [el] at elt
    refine L_positive w (by omega) (by
      unfold Room; simp only [usage_cons, usage_nil, el]; omega) ?_
    refine L_less w hlt elt (by room w) (fun hn hc => hn ?_) fun hlt' => ?_
    · obtain ⟨_, _, e, _, _, _, k3, _⟩ := hc
      cases e
      rw [expanded_leNat g1 g2 g3]; exact k3
    rw [expanded_leNat g1 g2 g3] at hlt'
    refine (any_sig w hd hp (by omega)).iff ⟨fun hv => ⟨nonce, s, rfl, e2, g1, g2, hlt', hv⟩, ?_⟩
    rintro ⟨_, _, e, _, _, _, _, hv⟩
    cases e
    exact hv

/-- What the last operations, from the time stamp on, demand. -/
def TailAny (x : Env) (d : Doc) (l : Program) (h : Bytes) (t : Compact) (acc : Bytes) (s : List Bytes) : Prop :=
  ∃ ts s', s = ts :: s' ∧ ts.length = 4 ∧ NonceOK x d l h t (acc ++ ts ++ wfix 4 t) s'

theorem any_tail {d : Doc} {h acc : Bytes} {t : Compact} (w : Wide x) (hd : x.doc = some d) (hp : ∀ i ∈ l, Plain x.cfg i)
    (hs : usage s < 2 ^ 31) (hr : 2 * usage s + acc.length + h.length + 1100 ≤ x.cfg.maxMem) :
    Leads x pre l opsTail (acc :: s) [wfix 4 t, wfix 4 t, h] (TailAny x d l h t acc s) := by
  unfold opsTail
  simp only [List.cons_append, List.nil_append]
  cases s with
  | nil => exact Leads.stop (fun hf => fl_swap hf) (by rintro ⟨_, _, h, _⟩; cases h)
  | cons ts s =>
    rw [usage_cons] at hr hs
    refine L_swap w (by room w) ?_
    refine L_size (k := 4) w (by decide) (by decide) (by omega) (by room w) (fun h' hc => ?_) fun e1 => ?_
    · obtain ⟨_, _, e, h4, _⟩ := hc
      cases e
      exact h' h4
    refine L_cat w (by room w) ?_
    refine L_fromalt w (by room w) ?_
    refine L_cat w (by room w) ?_
    refine (any_nonce w hd hp (by omega) (by simp only [List.length_append, wfix_length]; omega)).iff ⟨fun hv => ⟨ts, s, rfl, e1, hv⟩, ?_⟩
    rintro ⟨_, _, e, _, hv⟩
    cases e
    exact hv

/-- The operations without general purpose bits. -/
theorem any_plain {d : Doc} {hdr bod h : Bytes} {cat : BitVec 32} {t : Compact}
    {content : BitVec 256} (w : Wide x) (hd : x.doc = some d) (hp : ∀ i ∈ l, Plain x.cfg i) (hs : usage s < 2 ^ 31 - 500)
    (hr : 2 * hdr.length + 2 * bod.length + 2 * usage s + h.length + 2000 ≤ x.cfg.maxMem) :
    Leads x pre l opsPlain' (hdr :: bod :: wfix 4 t :: wfix 32 content :: wfix 4 cat :: s) [wfix 4 t, h]
      (∃ n1 n2 s', s = n1 :: n2 :: s' ∧ n1.length = 4 ∧ n2.length = 8 ∧
        TailAny x d l h t (wfix 4 cat ++ (wfix 32 content ++ x.hash .hash256 (hdr ++ n1 ++ n2 ++ bod))) s') := by
  unfold opsPlain'
  simp only [List.cons_append, List.nil_append]
  have hsl : ∀ s : List Bytes, 32 * s.length ≤ usage s := fun s => by rw [usage_flatten]; omega
  cases s with
  | nil => exact L_roll_none (k := 5) w (by decide) (by decide) (by simp) (by simp) (by room w) (by rintro ⟨_, _, _, h, _⟩; cases h)
  | cons n1 s =>
    have hsl' := hsl s
    rw [usage_cons] at hr hs
    refine L_roll (k := 5) (v := n1) w (by decide) (by decide) rfl (by simp only [List.length_cons]; omega) (by room w) ?_
    simp only [List.eraseIdx_cons_succ, List.eraseIdx_cons_zero]
    refine L_size (k := 4) w (by decide) (by decide) (by omega) (by room w) (fun h' hc => ?_) fun e1 => ?_
    · obtain ⟨_, _, _, e, h4, _⟩ := hc
      cases e
      exact h' h4
    refine L_cat w (by room w) ?_
    cases s with
    | nil => exact L_roll_none (k := 5) w (by decide) (by decide) (by simp) (by simp) (by room w) (by rintro ⟨_, _, _, h, _⟩; cases h)
    | cons n2 s =>
      simp only [usage_cons, List.length_cons] at hr hs hsl'
      refine L_roll (k := 5) (v := n2) w (by decide) (by decide) rfl (by simp only [List.length_cons]; omega) (by room w) ?_
      simp only [List.eraseIdx_cons_succ, List.eraseIdx_cons_zero]
      refine L_size (k := 8) w (by decide) (by decide) (by omega) (by room w) (fun h' hc => ?_) fun e2 => ?_
      · obtain ⟨_, _, _, e, _, h4, _⟩ := hc
        cases e
        exact h' h4
      refine L_cat w (by room w) ?_
      refine L_swap w (by room w) ?_
      refine L_cat w (by room w) ?_
      refine L_hash256 w (by room w) ?_
      refine L_swap w (by room w) ?_
      refine L_toalt w (by room w) ?_
      refine L_cat w (by room w) ?_
      refine L_cat w (by room w) ?_
      refine (any_tail w hd hp (by omega) (by simp only [List.length_append, wfix_length, w.hash]; omega)).iff
        ⟨fun hc => ⟨n1, n2, s, rfl, e1, e2, hc⟩, ?_⟩
      rintro ⟨_, _, _, e, _, _, hv⟩
      cases e
      exact hv

/-- The operations with general purpose bits. -/
theorem any_bits {d : Doc} {hdr bod h : Bytes} {cat : BitVec 32} {t : Compact}
    {content : BitVec 256} (w : Wide x) (hd : x.doc = some d) (hp : ∀ i ∈ l, Plain x.cfg i) (hs : usage s < 2 ^ 31 - 500)
    (hr : 2 * hdr.length + 2 * bod.length + 2 * usage s + h.length + 2000 ≤ x.cfg.maxMem) :
    Leads x pre l opsBits' (hdr :: bod :: wfix 4 t :: wfix 32 content :: wfix 4 cat :: s) [wfix 4 t, h]
      (∃ (b : BitVec 32) (n1 n2 : Bytes) (s' : List Bytes), s = wfix 4 b :: n1 :: n2 :: s' ∧ n1.length = 4 ∧ n2.length ≤ 32 ∧
        TailAny x d l h t (wfix 4 ((cat &&& boostMask) ||| (b &&& ~~~ boostMask)) ++
          (wfix 32 content ++ x.hash .hash256 (hdr ++ n1 ++ n2 ++ bod))) s') := by
  unfold opsBits'
  simp only [List.cons_append, List.nil_append]
  have hsl : ∀ s : List Bytes, 32 * s.length ≤ usage s := fun s => by rw [usage_flatten]; omega
  cases s with
  | nil => exact L_roll_none (k := 6) w (by decide) (by decide) (by simp) (by simp) (by room w) (by rintro ⟨_, _, _, _, h, _⟩; cases h)
  | cons g s =>
  cases s with
  | nil =>
    rw [usage_cons] at hr hs
    exact L_roll_none (k := 6) w (by decide) (by decide) (by simp) (by simp) (by room w) (by rintro ⟨_, _, _, _, h, _⟩; cases h)
  | cons n1 s =>
    have hsl' := hsl s
    simp only [usage_cons] at hr hs
    refine L_roll (k := 6) (v := n1) w (by decide) (by decide) rfl (by simp only [List.length_cons]; omega) (by room w) ?_
    simp only [List.eraseIdx_cons_succ, List.eraseIdx_cons_zero]
    refine L_size (k := 4) w (by decide) (by decide) (by omega) (by room w) (fun h' hc => ?_) fun e1 => ?_
    · obtain ⟨_, _, _, _, e, h4, _⟩ := hc
      cases e
      exact h' h4
    refine L_cat w (by room w) ?_
    cases s with
    | nil => exact L_roll_none (k := 6) w (by decide) (by decide) (by simp) (by simp) (by room w) (by rintro ⟨_, _, _, _, h, _⟩; cases h)
    | cons n2 s =>
      simp only [usage_cons, List.length_cons] at hr hs hsl'
      refine L_roll (k := 6) (v := n2) w (by decide) (by decide) rfl (by simp only [List.length_cons]; omega) (by room w) ?_
      simp only [List.eraseIdx_cons_succ, List.eraseIdx_cons_zero]
      refine L_size_le w (by omega) (by room w) (fun h' hc => ?_) fun e2 => ?_
      · obtain ⟨_, _, _, _, e, _, h4, _⟩ := hc
        cases e
        omega
      refine L_cat w (by room w) ?_
      refine L_swap w (by room w) ?_
      refine L_cat w (by room w) ?_
      refine L_hash256 w (by room w) ?_
      refine L_swap w (by room w) ?_
      refine L_toalt w (by room w) ?_
      refine L_cat w (by room w) ?_
      refine L_toalt w (by room w) ?_
      refine L_push w (by decide) (by room w) ?_
      refine L_dup w (by room w) ?_
      refine Leads.cons (by decide) st_invert (Room.fits w (by room w)) ?_
      refine L_toalt w (by room w) ?_
      refine Leads.cons (by decide) st_and (Room.fits w (by room w)) ?_
      refine L_swap w (by room w) ?_
      refine L_fromalt w (by room w) ?_
      by_cases hg : g.length = 4
      swap
      · refine Leads.stop (fun hf => fl_and (by rw [wfix_length]; exact hg) hf) fun hc => hg ?_
        obtain ⟨_, _, _, _, e, _⟩ := hc
        injection e with e _
        rw [e, wfix_length]
      have eg : g = wfix 4 (fromLE 32 g) := by
        have := wfix_fromLE (b := g) (w := 32) (by omega)
        rw [hg] at this
        exact this.symm
      generalize fromLE 32 g = b at eg
      subst eg
      refine Leads.cons (by decide) st_and (Room.fits w (by room w)) ?_
      refine Leads.cons (by decide) st_or (Room.fits w (by room w)) ?_
      refine L_fromalt w (by room w) ?_
      refine L_cat w (by room w) ?_
      refine (any_tail w hd hp (by omega) (by simp only [List.length_append, wfix_length, w.hash]; omega)).iff
        ⟨fun hc => ⟨b, n1, n2, s, rfl, e1, e2, hc⟩, ?_⟩
      rintro ⟨b', _, _, _, e, _, _, hv⟩
      injection e with e0 e
      cases e
      have : b = b' := by
        have := congrArg (fromLE 32) e0
        rwa [fromLE_wfix 4 32 rfl, fromLE_wfix 4 32 rfl] at this
      subst this
      exact hv

/-! ### The scripts -/

theorem output_carriable {o : Output} (hv : o.valid = true) (ht : o.tag.length < 2 ^ 31) (hd : o.data.length < 2 ^ 31) :
    ∀ i ∈ o.program, i.Carriable ∧ i.data.length + 5 < 2 ^ 32 := by
  rw [program_fields hv]
  intro i hi
  simp only [List.mem_cons, List.mem_append, List.mem_map] at hi
  rcases hi with rfl | rfl | ⟨f, hf, rfl⟩ | hi
  · exact push_ok (by decide)
  · exact op_carriable' (by decide)
  · have key : f.length < 2 ^ 31 := by
      unfold fields at hf
      simp only [List.mem_append, List.mem_cons, List.not_mem_nil, or_false] at hf
      rcases hf with hf | rfl | rfl | rfl | rfl | rfl | rfl
      · split at hf
        · simp only [List.mem_cons, List.not_mem_nil, or_false] at hf
          rw [hf, wfix_length]; decide
        · simp at hf
      all_goals (try rw [wfix_length]); omega
    exact push_ok key
  · refine ops_ok i ?_
    rw [List.mem_append]
    split at hi
    · exact .inl hi
    · exact .inr hi

theorem output_plain {c : Cfg} {o : Output} (hv : o.valid = true) (ht : o.tag.length < 2 ^ 31) (hd : o.data.length < 2 ^ 31)
    (hm : c.minimal = true → ∀ v ∈ [o.tag, o.data], v.length ≠ 256 ∧ v.length ≠ 65536) : ∀ i ∈ o.program, Plain c i := by
  rw [program_fields hv]
  intro i hi
  simp only [List.mem_cons, List.mem_append, List.mem_map] at hi
  rcases hi with rfl | rfl | ⟨f, hf, rfl⟩ | hi
  · exact plain_push (by decide) (by decide)
  · exact ⟨by cases c.minimal <;> decide, fun _ => by decide, by decide, by decide, by decide, by decide, by decide⟩
  · have key : f = o.tag ∨ f = o.data ∨ (2 ≤ f.length ∧ f.length ≤ 75) := by
      unfold fields at hf
      simp only [List.mem_append, List.mem_cons, List.not_mem_nil, or_false] at hf
      rcases hf with hf | rfl | rfl | rfl | rfl | rfl | rfl
      · split at hf
        · simp only [List.mem_cons, List.not_mem_nil, or_false] at hf
          rw [hf, wfix_length]; omega
        · simp at hf
      all_goals simp
    rcases key with rfl | rfl | h2
    · exact plain_push_any (by omega) fun hc => hm hc _ (by simp)
    · exact plain_push_any (by omega) fun hc => hm hc _ (by simp)
    · exact plain_push h2.1 h2.2
  · exact plain_ops _ _ i hi

theorem output_length {o : Output} (hv : o.valid = true) (ht : o.tag.length < 2 ^ 31) (hd : o.data.length < 2 ^ 31) :
    (o.program.flatMap Instr.write).length ≤ o.tag.length + o.data.length + 300 := by
  have hne : o.kind ≠ .invalid := by simpa [Output.valid] using hv
  rw [Output.length_eq o hne]
  have h1 := push_write_bound (d := o.tag) (by omega)
  have h2 := push_write_bound (d := o.data) (by omega)
  split <;> split <;> omega

theorem output_count {o : Output} (hv : o.valid = true) : o.program.length < 200 := by
  rw [program_fields hv]
  have h1 : (fields o).length ≤ 7 := by unfold fields; split <;> simp
  have h2 : (if o.useBits then opsBits else opsPlain).length ≤ 120 := by split <;> decide
  simp only [List.length_cons, List.length_append, List.length_map]
  omega

theorem output_not_hash {o : Output} (hv : o.valid = true) (ht : o.tag.length < 2 ^ 31) (hd : o.data.length < 2 ^ 31) :
    isP2SH o.program = .ok false := by
  have hcl := output_carriable hv ht hd
  unfold isP2SH
  rw [compile_ok _ (fun i hi => (hcl i hi).1) (fun i hi => (hcl i hi).2), program_fields hv]
  have : (Instr.push boostpow).write = 0x08 :: boostpow := by decide +kernel
  simp only [List.flatMap_cons, this]
  simp [isP2SHBytes, Except.map]

theorem write_pos (i : Instr) : 1 ≤ i.write.length := by
  unfold Instr.write
  split
  · repeat' split
    all_goals simp
  · simp

/-- The space that pushed values take. -/
theorem usage_pushes (u : Program) (cu : ∀ i ∈ u, i.Carriable) :
    usage (u.map Instr.pushData).reverse ≤ 33 * (u.flatMap Instr.write).length ∧ u.length ≤ (u.flatMap Instr.write).length := by
  rw [usage_reverse]
  induction u with
  | nil => simp [usage]
  | cons i u ih =>
    have h1 := Script.pushData_le i (cu i (by simp))
    have h2 := write_pos i
    have h3 := ih fun j hj => cu j (by simp [hj])
    simp only [List.map_cons, usage_cons, List.flatMap_cons, List.length_append, List.length_cons]
    omega

/-! ### All of it -/

/-- What the script finds out about the stack. -/
def Found (x : Env) (d : Doc) (o : Output) (s : List Bytes) : Prop :=
  ∃ h rest, s = (if o.kind = .contract then rest else h :: rest) ∧ (o.kind = .contract → h = wfix 20 o.hash) ∧
    if o.useBits then
      ∃ (b : BitVec 32) (n1 n2 : Bytes) (s' : List Bytes), rest = wfix 4 b :: n1 :: n2 :: s' ∧ n1.length = 4 ∧ n2.length ≤ 32 ∧
        TailAny x d o.program h o.target (wfix 4 ((o.category &&& boostMask) ||| (b &&& ~~~ boostMask)) ++
          (wfix 32 o.content ++ x.hash .hash256 ((o.tag ++ h) ++ n1 ++ n2 ++ (wfix 4 o.userNonce ++ o.data)))) s'
    else
      ∃ n1 n2 s', rest = n1 :: n2 :: s' ∧ n1.length = 4 ∧ n2.length = 8 ∧
        TailAny x d o.program h o.target (wfix 4 o.category ++
          (wfix 32 o.content ++ x.hash .hash256 ((o.tag ++ h) ++ n1 ++ n2 ++ (wfix 4 o.userNonce ++ o.data)))) s'

theorem any_rest {d : Doc} {o : Output} {h : Bytes} {rest : List Bytes} (w : Wide x) (hd : x.doc = some d)
    (hp : ∀ i ∈ l, Plain x.cfg i) (hs : usage rest < 2 ^ 31 - 500)
    (hr : 2 * o.tag.length + 2 * o.data.length + 3 * h.length + 2 * usage rest + 2100 ≤ x.cfg.maxMem) :
    Leads x pre l (if o.useBits then opsBits' else opsPlain')
      ((o.tag ++ h) :: (wfix 4 o.userNonce ++ o.data) :: wfix 4 o.target :: wfix 32 o.content :: wfix 4 o.category :: rest)
      [wfix 4 o.target, h]
      (if o.useBits then
        ∃ (b : BitVec 32) (n1 n2 : Bytes) (s' : List Bytes), rest = wfix 4 b :: n1 :: n2 :: s' ∧ n1.length = 4 ∧ n2.length ≤ 32 ∧
          TailAny x d l h o.target (wfix 4 ((o.category &&& boostMask) ||| (b &&& ~~~ boostMask)) ++
            (wfix 32 o.content ++ x.hash .hash256 ((o.tag ++ h) ++ n1 ++ n2 ++ (wfix 4 o.userNonce ++ o.data)))) s'
      else
        ∃ n1 n2 s', rest = n1 :: n2 :: s' ∧ n1.length = 4 ∧ n2.length = 8 ∧
          TailAny x d l h o.target (wfix 4 o.category ++
            (wfix 32 o.content ++ x.hash .hash256 ((o.tag ++ h) ++ n1 ++ n2 ++ (wfix 4 o.userNonce ++ o.data)))) s') := by
  cases o.useBits with
  | true =>
    simp only [if_true]
    exact any_bits w hd hp hs (by simp only [List.length_append, wfix_length]; omega)
  | false =>
    simp only [Bool.false_eq_true, if_false]
    exact any_plain w hd hp hs (by simp only [List.length_append, wfix_length]; omega)

/-- A bounty without anything below. -/
theorem any_empty {o : Output} (w : Wide x) (hv : o.valid = true) (hk : o.kind ≠ .contract) (ht : o.tag.length < 2 ^ 31)
    (hd : o.data.length < 2 ^ 31) (hr : 2 * o.data.length + 2 * o.tag.length + 1000 ≤ x.cfg.maxMem) (hQ : ¬ Q) :
    Leads x pre l o.program [] [] Q := by
  have bl : boostpow.length = 8 := rfl
  have e : (if o.useBits then opsBits else opsPlain) = opsHead ++ (if o.useBits then opsBits' else opsPlain') := by
    split
    · exact opsBits_eq
    · exact opsPlain_eq
  rw [program_fields hv, e]
  unfold fields opsHead
  rw [if_neg hk]
  simp only [List.map_cons, List.map_nil, List.cons_append, List.nil_append]
  refine L_push w (by decide) (by
    unfold Room; simp only [usage_cons, usage_nil, bl]; omega) ?_
  refine L_drop w (by unfold Room; simp only [usage_nil]; omega) ?_
  refine L_push w (by rw [wfix_length]; decide) (by room w) ?_
  refine L_push w (by rw [wfix_length]; decide) (by room w) ?_
  refine L_push w (by rw [wfix_length]; decide) (by room w) ?_
  refine L_push w ht (by room w) ?_
  refine L_push w (by rw [wfix_length]; decide) (by room w) ?_
  refine L_push w hd (by room w) ?_
  refine L_cat w (by room w) ?_
  refine L_swap w (by room w) ?_
  exact L_roll_none (k := 5) w (by decide) (by decide) (by simp) (by simp) (by room w) hQ

/-- Running an output script on any stack. -/
theorem any_output {d : Doc} {o : Output} (w : Wide x) (hd : x.doc = some d) (hv : o.valid = true)
    (hp : ∀ i ∈ o.program, Plain x.cfg i) (hs : usage s + o.tag.length + o.data.length < 2 ^ 30)
    (hr : 2 * o.tag.length + 2 * o.data.length + 3 * usage s + 3000 ≤ x.cfg.maxMem) :
    Leads x pre o.program o.program s [] (Found x d o s) := by
  have hne : o.kind ≠ .invalid := by simpa [Output.valid] using hv
  have hsl : ∀ s : List Bytes, 32 * s.length ≤ usage s := fun s => by rw [usage_flatten]; omega
  by_cases hk : o.kind = .contract
  · have h20 : (wfix 20 o.hash).length = 20 := wfix_length _ _
    have := hsl s
    refine run_program (h := wfix 20 o.hash) (rest := s) w hv (by rw [if_pos hk]) (fun _ => rfl) (by omega) (by omega) (by omega)
      (by omega) ?_
    refine (any_rest w hd hp (by omega) (by omega)).iff ?_
    unfold Found
    constructor
    · intro h
      exact ⟨_, s, by rw [if_pos hk], fun _ => rfl, h⟩
    · rintro ⟨h, rest, e1, e2, h3⟩
      rw [if_pos hk] at e1
      obtain rfl := e2 hk
      subst e1
      exact h3
  · cases s with
    | nil =>
      refine any_empty w hv hk (by omega) (by omega) (by omega) ?_
      rintro ⟨h, rest, e1, _⟩
      rw [if_neg hk] at e1
      cases e1
    | cons h rest =>
      have := hsl rest
      rw [usage_cons] at hs hr
      refine run_program (h := h) (rest := rest) w hv (by rw [if_neg hk]) (fun hh => absurd hh hk) (by omega) (by omega) (by omega)
        (by omega) ?_
      refine (any_rest w hd hp (by omega) (by omega)).iff ?_
      unfold Found
      constructor
      · intro h'
        exact ⟨_, _, by rw [if_neg hk], fun hh => absurd hh hk, h'⟩
      · rintro ⟨h', rest', e1, _, h3⟩
        rw [if_neg hk] at e1
        cases e1
        exact h3

/-- The same in terms of inputs. -/
theorem found_iff {d : Doc} {o : Output} (w : Wide x) (hv : o.valid = true) (vs : List Bytes) :
    Found x d o vs.reverse ↔
      ∃ i bot, vs = bot ++ pushed i ∧ (x.cfg.cleanStack = true → bot = []) ∧ 3 ≤ o.target.exponent ∧ o.target.exponent ≤ 32 ∧
        Redeems x d o i := by
  have hne : o.kind ≠ .invalid := by simpa [Output.valid] using hv
  have hkc : ¬ o.kind = .contract → o.kind = .bounty := fun h => by cases hk : o.kind <;> simp_all
  constructor
  · rintro ⟨h, rest, e1, e2, h3⟩
    have fin : ∀ (gs : List Bytes) (n1 n2 : Bytes) (v : BitVec 32) (s' : List Bytes), rest = gs ++ n1 :: n2 :: s' →
        gs.length = (if o.useBits then 1 else 0) → n1.length = 4 → (if o.useBits then n2.length ≤ 32 else n2.length = 8) →
        (if o.useBits then ∃ b : BitVec 32, gs = [wfix 4 b] ∧ v = (o.category &&& boostMask) ||| (b &&& ~~~ boostMask)
          else v = o.category) →
        TailAny x d o.program h o.target (wfix 4 v ++
          (wfix 32 o.content ++ x.hash .hash256 ((o.tag ++ h) ++ n1 ++ n2 ++ (wfix 4 o.userNonce ++ o.data)))) s' →
        ∃ i bot, vs = bot ++ pushed i ∧ (x.cfg.cleanStack = true → bot = []) ∧ 3 ≤ o.target.exponent ∧ o.target.exponent ≤ 32 ∧
          Redeems x d o i := by
      rintro gs n1 n2 v s' er hgs l1 l2 hv' ⟨ts, _, rfl, lt, nonce, _, rfl, ln, x3, x32, hw, pub, sig, bot, rfl, hh, hver, hcl⟩
      obtain ⟨i, hi, _, _, hred⟩ := (redeems_iff (d := d) (sig := sig) (pub := pub) (nonce := nonce) (ts := ts) (n2 := n2) (n1 := n1)
        (h := h) (gs := gs) (hs := if o.kind = .bounty then [h] else []) w hv hgs rfl e2).mpr
          ⟨l1, l2, v, hv', lt, ln, x3, x32, hw, hh, hver⟩
      refine ⟨i, bot.reverse, ?_, fun hc => by rw [hcl hc]; rfl, x3, x32, hred⟩
      rw [hi]
      have e : gs.reverse = gs := by
        have : gs.length ≤ 1 := by rw [hgs]; split <;> omega
        match gs, this with
        | [], _ => rfl
        | [g], _ => rfl
      have : vs = (if o.kind = .contract then rest else h :: rest).reverse := by rw [← e1, List.reverse_reverse]
      rw [this, er]
      by_cases hk : o.kind = .contract
      · simp [hk, e]
      · simp [hkc hk, e]
    by_cases hu : o.useBits = true
    · rw [if_pos hu] at h3
      obtain ⟨b, n1, n2, s', r1, r2, r3, r4⟩ := h3
      exact fin [wfix 4 b] n1 n2 _ s' (by rw [r1]; rfl) (by simp [hu]) r2 (by rw [if_pos hu]; exact r3)
        (by rw [if_pos hu]; exact ⟨b, rfl, rfl⟩) r4
    · rw [if_neg hu] at h3
      obtain ⟨n1, n2, s', r1, r2, r3, r4⟩ := h3
      exact fin [] n1 n2 _ s' (by rw [r1]; rfl) (by simp [hu]) r2 (by rw [if_neg hu]; exact r3)
        (by rw [if_neg hu]) r4
  · rintro ⟨i, bot, rfl, hcl, x3, x32, hred⟩
    have hk := hred.2.1
    have hb := hred.2.2.1
    generalize hgs : (i.bits.map (wfix 4)).toList = gs
    have hgl : gs.length = if o.useBits then 1 else 0 := by
      rw [← hgs, ← hb]; cases i.bits <;> rfl
    have e : gs.reverse = gs := by
      have : gs.length ≤ 1 := by rw [hgl]; split <;> omega
      match gs, this with
      | [], _ => rfl
      | [g], _ => rfl
    have hp : pushed i = [i.signature, i.pubkey, wfix 4 i.nonce, wfix 4 i.timestamp, i.extraNonce2, (wfix 4 i.extraNonce1).reverse] ++
        gs ++ (if o.kind = .bounty then [wfix 20 (minerHash o i)] else []) := by
      unfold pushed minerHash
      rw [hgs, hk]
      split <;> rfl
    obtain ⟨l1, l2, v, hvv, lt, ln, _, _, hw, hh, hver⟩ := (redeems_iff (d := d) (h := wfix 20 (minerHash o i)) w hv hgl rfl
      (fun hc => by unfold minerHash; rw [if_neg (by rw [hc]; decide)])).mp ⟨i, hp, x3, x32, hred⟩
    have tail : TailAny x d o.program (wfix 20 (minerHash o i)) o.target (wfix 4 v ++ (wfix 32 o.content ++
        x.hash .hash256 ((o.tag ++ wfix 20 (minerHash o i)) ++ (wfix 4 i.extraNonce1).reverse ++ i.extraNonce2 ++
          (wfix 4 o.userNonce ++ o.data)))) (wfix 4 i.timestamp :: wfix 4 i.nonce :: i.pubkey :: i.signature :: bot.reverse) :=
      ⟨_, _, rfl, lt, _, _, rfl, ln, x3, x32, hw, _, _, _, rfl, hh, hver, fun hc => by rw [hcl hc]; rfl⟩
    refine ⟨wfix 20 (minerHash o i), gs ++ (wfix 4 i.extraNonce1).reverse :: i.extraNonce2 :: wfix 4 i.timestamp :: wfix 4 i.nonce ::
      i.pubkey :: i.signature :: bot.reverse, ?_, fun hc => by unfold minerHash; rw [if_neg (by rw [hc]; decide)], ?_⟩
    · rw [hp]
      by_cases hc : o.kind = .contract
      · simp [hc, e]
      · simp [hkc hc, e]
    · by_cases hu : o.useBits = true
      · rw [if_pos hu] at hvv l2 ⊢
        obtain ⟨b, rfl, rfl⟩ := hvv
        exact ⟨b, _, _, _, rfl, l1, l2, tail⟩
      · rw [if_neg hu] at hvv l2 hgl ⊢
        subst hvv
        obtain rfl : gs = [] := by simpa using hgl
        exact ⟨_, _, _, rfl, l1, l2, tail⟩

/-- Evaluating any program that pushes and an output script. -/
theorem any_evaluate {d : Doc} {o : Output} (w : Wide x) (hd : x.doc = some d) (hv : o.valid = true)
    (hp : ∀ i ∈ o.program, Plain x.cfg i) {u : Program} (cu : ∀ i ∈ u, i.Carriable) (hu : ∀ i ∈ u, Plain x.cfg i)
    (pu : isPushProgram u = true) (hsize : 40 * (u.flatMap Instr.write).length + o.tag.length + o.data.length < 2 ^ 28)
    (hmem : 100 * (u.flatMap Instr.write).length + 2 * (o.tag.length + o.data.length) + 4000 ≤ x.cfg.maxMem)
    (hops : 300 ≤ x.cfg.maxOps) (n : Nat) (hn : (u.flatMap Instr.write).length + 300 ≤ n) :
    ∃ r, evaluate x n (u.flatMap Instr.write) (o.program.flatMap Instr.write) = .done r ∧
      (r.verified = true ↔ ∃ i bot, u.map Instr.pushData = bot ++ pushed i ∧ (x.cfg.cleanStack = true → bot = []) ∧
        3 ≤ o.target.exponent ∧ o.target.exponent ≤ 32 ∧ Redeems x d o i) := by
  have hcl := output_carriable hv (by omega) (by omega)
  have hll := output_length hv (by omega) (by omega)
  have hpl' := output_count hv
  obtain ⟨hus, hul⟩ := usage_pushes u cu
  have hfit : Fits x.cfg (u.map Instr.pushData).reverse [] := by
    rw [w.fits, usage_nil]
    omega
  have hev := evaluate_plain (x := x) hu hp cu (fun i hi => (hcl i hi).1) pu (output_not_hash hv (by omega) (by omega))
    (by omega) hfit (by omega) (n - u.length - 1)
  rw [machineAt_start, ← mAt_machineAt, show u.length + (n - u.length - 1 + 1) = n by omega] at hev
  rw [hev]
  generalize hpre : u.flatMap Instr.write ++ [0xab] = pre
  have hprel : pre.length = (u.flatMap Instr.write).length + 1 := by rw [← hpre]; simp
  obtain ⟨st, m, r, e1, e2, e3⟩ := any_output (pre := pre) (s := (u.map Instr.pushData).reverse) w hd hv hp (by omega) (by omega)
    [] 1 (n - u.length - 1) rfl (fun i hi => (hcl i hi).1) (by rw [List.length_append]; omega) (by omega) (by omega) hfit
  rw [found_iff w hv] at e3
  simp only [List.flatMap_nil, List.append_nil] at e1
  refine ⟨r, ?_, e3⟩
  rw [e1]
  simp only [outOf, e2]

end Verif.Boost
