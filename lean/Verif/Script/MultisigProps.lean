import Verif.Script.ArithProps
import Verif.Script.SepProps

/-
C90: CHECKMULTISIG says whether the signatures can be matched with some of the keys, in
order.
-/

namespace Verif.Script

open Verif SM

/-! ### Specification -/

/-- Each signature is accepted with one of some of the keys, which come in the same order as the
signatures. -/
def Matched (check : Bytes → Bytes → Result) (sigs keys : List Bytes) : Prop :=
  ∃ chosen : List Bytes, chosen.Sublist keys ∧ List.Forall₂ (fun s k => (check s k).success = true) sigs chosen

/-- A count on the stack: at most four bytes, shortest if that is demanded. -/
def Count (c : Cfg) (b : Bytes) (n : Nat) : Prop :=
  numVal b = n ∧ b.length ≤ 4 ∧ (c.minimal = true → Shortest b)

/-- A check gives an error.  The signatures and keys are tried from the first on; an accepted signature is followed by the
next with the next key, a refused one is tried with the next key, as long as there are enough keys for the signatures. -/
inductive Erring (check : Bytes → Bytes → Result) (e : ScriptError) : List Bytes → List Bytes → Prop
  | here {s k S K} : (check s k).error = e → e ≠ .ok → Erring check e (s :: S) (k :: K)
  | accepted {s k S K} : (check s k).error = .ok → (check s k).success = true → Erring check e S K →
      Erring check e (s :: S) (k :: K)
  | refused {s k S K} : (check s k).error = .ok → (check s k).success = false → S.length < K.length →
      Erring check e (s :: S) K → Erring check e (s :: S) (k :: K)

/-! ### The loop -/

/-- Trying the keys from the first on, moving to the next signature when one is accepted. -/
def greedy (check : Bytes → Bytes → Result) : List Bytes → List Bytes → Bool
  | [], _ => true
  | _ :: _, [] => false
  | s :: S, k :: K => if (check s k).success then greedy check S K else greedy check (s :: S) K

theorem greedy_short (check : Bytes → Bytes → Result) (K S : List Bytes) (h : K.length < S.length) :
    greedy check S K = false := by
  induction K generalizing S with
  | nil => cases S with
    | nil => simp at h
    | cons s S => rfl
  | cons k K ih => cases S with
    | nil => simp at h
    | cons s S =>
      unfold greedy
      simp only [List.length_cons] at h
      split
      · exact ih S (by omega)
      · exact ih (s :: S) (by simp; omega)

theorem greedy_iff (check : Bytes → Bytes → Result) (K S : List Bytes) : greedy check S K = true ↔ Matched check S K := by
  induction K generalizing S with
  | nil => cases S with
    | nil => exact ⟨fun _ => ⟨[], .slnil, .nil⟩, fun _ => rfl⟩
    | cons s S =>
      refine ⟨fun h => (by cases h), ?_⟩
      rintro ⟨ch, h1, h2⟩
      rw [List.sublist_nil.mp h1] at h2
      cases h2
  | cons k K ih => cases S with
    | nil => exact ⟨fun _ => ⟨[], List.nil_sublist _, .nil⟩, fun _ => rfl⟩
    | cons s S =>
      unfold greedy
      split
      · rename_i hs
        rw [ih]
        constructor
        · rintro ⟨ch, h1, h2⟩
          exact ⟨k :: ch, h1.cons_cons k, .cons hs h2⟩
        · rintro ⟨ch, h1, h2⟩
          cases h2 with
          | cons ha hb =>
            rename_i b l
            refine ⟨l, ?_, hb⟩
            cases h1 with
            | cons _ h => exact (List.sublist_cons_self _ _).trans h
            | cons_cons _ h => exact h
      · rename_i hs
        rw [ih]
        constructor
        · rintro ⟨ch, h1, h2⟩
          exact ⟨ch, h1.cons k, h2⟩
        · rintro ⟨ch, h1, h2⟩
          refine ⟨ch, ?_, h2⟩
          cases h1 with
          | cons _ h => exact h
          | cons_cons _ h => cases h2 with | cons ha hb => exact absurd ha hs

/-- The loop finishes with the error of a check, or if there is none with the greedy answer. -/
theorem multisigLoop_spec (c : Cfg) (check : Bytes → Bytes → Result) (m : Machine) (K S : List Bytes) (isig ikey : Nat)
    (hS : ∀ j (h : j < S.length), m.stack[isig + j]? = some S[j])
    (hK : ∀ j (h : j < K.length), m.stack[ikey + j]? = some K[j])
    (h1 : isig + S.length < 2 ^ 31) (h2 : ikey + K.length < 2 ^ 31) (hle : S.length ≤ K.length) :
    (∃ e, Erring check e S K ∧
      multisigLoop c check K.length S.length (isig + 1) (ikey + 1) m = .stop (.ret (.ofError e)) m) ∨
    ((∀ e, ¬ Erring check e S K) ∧
      multisigLoop c check K.length S.length (isig + 1) (ikey + 1) m = .ok (greedy check S K) m) := by
  induction K generalizing S isig ikey with
  | nil =>
    have : S = [] := List.length_eq_zero_iff.mp (by simpa using hle)
    subst this
    right
    refine ⟨fun e h => (by cases h), ?_⟩
    simp [multisigLoop, greedy, SM.pure_def']
  | cons k K ih =>
    cases S with
    | nil => exact .inr ⟨fun e h => (by cases h), by simp [multisigLoop, greedy, SM.pure_def']⟩
    | cons s S =>
      have ht : m.stack[isig]? = some s := hS 0 (by simp)
      have hk : m.stack[ikey]? = some k := hK 0 (by simp)
      simp only [List.length_cons] at h1 h2 hle
      rw [List.length_cons, List.length_cons]
      unfold multisigLoop
      rw [if_neg (by omega)]
      simp only
      rw [negI32_small isig (by omega), negI32_small ikey (by omega), top_bind _ isig rfl ht, top_bind _ ikey rfl hk]
      have hK' : ∀ j (h : j < K.length), m.stack[ikey + 1 + j]? = some K[j] := by
        intro j hj
        have := hK (j + 1) (by simp; omega)
        rw [Nat.add_right_comm]
        simpa [Nat.add_assoc] using this
      by_cases he : (check s k).error = .ok
      · rw [failIf_bind_pass (by simpa using he)]
        unfold greedy
        by_cases hs : (check s k).success = true
        · simp only [hs, if_true, Nat.add_sub_cancel]
          rw [if_neg (by omega)]
          rcases ih S (isig + 1) (ikey + 1) (fun j hj => by
            have := hS (j + 1) (by simp; omega)
            rw [Nat.add_right_comm]
            simpa [Nat.add_assoc] using this) hK' (by omega) (by omega) (by omega) with ⟨e, a, r⟩ | ⟨a, r⟩
          · exact .inl ⟨e, .accepted he hs a, r⟩
          · refine .inr ⟨fun e h => ?_, r⟩
            cases h with
            | here h1 h2 => exact h2 (h1.symm.trans he)
            | accepted _ _ h => exact a e h
            | refused _ h _ _ => rw [hs] at h; cases h
        · have hs' : (check s k).success = false := by simpa using hs
          simp only [hs]
          by_cases hlt : S.length + 1 > K.length
          · right
            refine ⟨fun e h => ?_, ?_⟩
            · cases h with
              | here h1 h2 => exact h2 (h1.symm.trans he)
              | accepted _ h _ => exact hs h
              | refused _ _ h _ => omega
            rw [if_pos (by simpa using hlt)]
            rw [if_neg (by decide), greedy_short check K (s :: S) (by simp; omega)]
            rfl
          · rw [if_neg (by simpa using hlt), if_neg (by decide)]
            rcases ih (s :: S) isig (ikey + 1) hS hK' (by simp; omega) (by omega) (by simp; omega) with
              ⟨e, a, r⟩ | ⟨a, r⟩
            · exact .inl ⟨e, .refused he hs' (by omega) a, r⟩
            · refine .inr ⟨fun e h => ?_, r⟩
              cases h with
              | here h1 h2 => exact h2 (h1.symm.trans he)
              | accepted _ h _ => exact hs h
              | refused _ _ _ h => exact a e h
      · left
        exact ⟨_, .here rfl he, failIf_bind_fail (by simpa using he)⟩

/-! ### Cleaning up -/

/-- Removing the arguments: those before the signatures are removed as they are; if the answer is no
and it is demanded then a signature that is not empty is refused. -/
theorem popArgs_plain (c : Cfg) (ok : Bool) (A rest : List Bytes) (m : Machine) (n ikey2 : Nat) (hw : Wf c m)
    (hs : m.stack = A ++ rest) (hk : A.length ≤ ikey2) :
    popArgs c ok (A.length + n) ikey2 m = popArgs c ok n (ikey2 - A.length) (withStacks c m rest m.alt) := by
  induction A generalizing m ikey2 with
  | nil =>
    rw [List.length_nil, Nat.zero_add, Nat.sub_zero]
    simp only [List.nil_append] at hs
    rw [← hs, withStacks_self hw]
  | cons a A ih =>
    simp only [List.length_cons] at hk ⊢
    rw [show A.length + 1 + n = (A.length + n) + 1 by omega]
    conv_lhs => unfold popArgs
    rw [top_bind (-1) 0 (by omega) (by rw [hs]; rfl), failIf_bind_pass (by
      simp only [Bool.and_eq_true, beq_iff_eq, not_and]
      intro _ h0; omega), pop_bind hw hs, ih _ _ (wf_pop hw hs) rfl (by omega)]
    rw [withStacks_withStacks, withStacks_alt, Nat.sub_sub, Nat.add_comm 1]

theorem popArgs_sigs (c : Cfg) (ok : Bool) (S rest : List Bytes) (m : Machine) (hw : Wf c m) (hs : m.stack = S ++ rest) :
    if ok = false ∧ c.nullFail = true ∧ ∃ s ∈ S, s ≠ [] then
      ∃ m', popArgs c ok S.length 0 m = .stop (.ret (.ofError .sigNullfail)) m'
    else popArgs c ok S.length 0 m = .ok () (withStacks c m rest m.alt) := by
  induction S generalizing m with
  | nil =>
    simp only [List.not_mem_nil, false_and, exists_false, and_false, if_false]
    simp only [List.nil_append] at hs
    rw [← hs, withStacks_self hw]
    rfl
  | cons a S ih =>
    rw [List.length_cons]
    unfold popArgs
    rw [top_bind (-1) 0 (by omega) (by rw [hs]; rfl)]
    by_cases ha : ok = false ∧ c.nullFail = true ∧ a ≠ []
    · rw [if_pos ⟨ha.1, ha.2.1, a, by simp, ha.2.2⟩, failIf_bind_fail (by
        simp [ha.1, ha.2.1, ha.2.2])]
      exact ⟨_, rfl⟩
    · rw [failIf_bind_pass (by
        simp only [Bool.and_eq_true, Bool.not_eq_true', bne_iff_ne, ne_eq, List.length_eq_zero_iff, beq_self_eq_true,
          and_true]
        rintro ⟨⟨h1, h2⟩, h3⟩
        exact ha ⟨h1, h2, h3⟩), pop_bind hw hs]
      have := ih _ (wf_pop hw hs) rfl
      rw [withStacks_withStacks, withStacks_alt] at this
      by_cases hc : ok = false ∧ c.nullFail = true ∧ ∃ s ∈ S, s ≠ []
      · rw [if_pos hc] at this
        rw [if_pos ⟨hc.1, hc.2.1, by obtain ⟨s, h1, h2⟩ := hc.2.2; exact ⟨s, by simp [h1], h2⟩⟩]
        exact this
      · rw [if_neg hc] at this
        rw [if_neg]
        · exact this
        · rintro ⟨h1, h2, s, h3, h4⟩
          rcases List.mem_cons.mp h3 with rfl | h3
          · exact ha ⟨h1, h2, h4⟩
          · exact hc ⟨h1, h2, s, h3, h4⟩

theorem count_bind {c : Cfg} {m : Machine} {b : Bytes} {n : Nat} {f : Bytes → SM α} (i : Int) (k : Nat)
    (hi : i = -(k : Int) - 1) (h : m.stack[k]? = some b) (ho : Count c b n) :
    (readNum c i 4 >>= f) m = f b m := by
  rw [SM.bind_def, readNum_pass k hi h ho.2.1 (fun hm => (C81_minimal_iff b).mpr (ho.2.2 hm))]

theorem fits_answer {c : Cfg} {a b d : Bytes} {A S rest alt : List Bytes} {ok : Bool}
    (h : Fits c (a :: (A ++ b :: (S ++ d :: rest))) alt) : Fits c (numBool ok :: rest) alt := by
  have hl : (numBool ok).length ≤ 1 := by cases ok <;> decide
  unfold Fits at *
  split at h
  · rename_i g
    rw [if_pos g]
    unfold usage at *
    simp only [List.map_cons, List.sum_cons, List.map_append, List.sum_append] at h ⊢
    omega
  · rename_i g
    rw [if_neg g]
    simp only [List.length_cons, List.length_append] at h ⊢
    refine ⟨by omega, fun x hx => ?_⟩
    rcases hx with hx | hx
    · rcases List.mem_cons.mp hx with rfl | hx
      · omega
      · exact h.2 x (.inl (by simp [hx]))
    · exact h.2 x (.inr hx)

/-! ### C90 -/

/-- The state after CHECKMULTISIG has answered: its arguments replaced by the answer, and the
keys counted as operations. -/
def answered (c : Cfg) (m : Machine) (n : Nat) (rest : List Bytes) (ok : Bool) : Machine :=
  withStacks c { m with opCount := m.opCount + n } (numBool ok :: rest) m.alt

open Classical in
/-- CHECKMULTISIG with some keys, some signatures and an extra element on the stack fails with the
error of a check if one is met, and otherwise says whether the signatures can be matched with keys in order; if they cannot
and it is demanded that failing signatures are empty, then they have to be; and so has the extra element
if that is demanded. -/
theorem C90_multisig (x : Env) (ctr : Counter) (m : Machine) (nk ns dummy : Bytes) (keys sigs rest : List Bytes)
    (check : Bytes → Bytes → Result) (hw : Wf x.cfg m)
    (hs : m.stack = nk :: (keys ++ ns :: (sigs ++ dummy :: rest)))
    (hnk : Count x.cfg nk keys.length) (hns : Count x.cfg ns sigs.length)
    (hmax : keys.length ≤ x.cfg.maxPubKeys) (hops : m.opCount + keys.length ≤ x.cfg.maxOps)
    (hle : sigs.length ≤ keys.length) (hsz : keys.length + sigs.length + 3 < 2 ^ 31)
    (hc : ∀ m', m'.stack = m.stack → multisigChecker x.cfg x.doc ctr sigs.length m' = .ok check m') :
    (∃ e, Erring check e sigs keys ∧ ∃ m', execOp x ctr 0xae m = .stop (.ret (.ofError e)) m') ∨
    (∀ e, ¬ Erring check e sigs keys) ∧
    (if ¬ Matched check sigs keys ∧ x.cfg.nullFail = true ∧ ∃ s ∈ sigs, s ≠ [] then
      ∃ m', execOp x ctr 0xae m = .stop (.ret (.ofError .sigNullfail)) m'
    else if x.cfg.nullDummy = true ∧ dummy ≠ [] then
      ∃ m', execOp x ctr 0xae m = .stop (.ret (.ofError .sigNulldummy)) m'
    else execOp x ctr 0xae m = .ok () (answered x.cfg m keys.length rest (decide (Matched check sigs keys)))) := by
  rw [show execOp x ctr 0xae = opCheckMultisig x.cfg x.doc ctr false from rfl]
  have hlen : m.stack.length = 1 + keys.length + 1 + sigs.length + 1 + rest.length := by
    rw [hs]; simp; omega
  unfold opCheckMultisig
  rw [need_bind_pass (by omega), count_bind (-1) 0 (by omega) (by rw [hs]; rfl) hnk, hnk.1,
    failIf_bind_pass (by omega), Int.toNat_natCast, failIf_bind_pass (by omega)]
  let m1 : Machine := { m with opCount := m.opCount + keys.length }
  have hw1 : Wf x.cfg m1 := hw
  have hs1 : m1.stack = nk :: (keys ++ ns :: (sigs ++ dummy :: rest)) := hs
  have hcnt : ∀ (f : Unit → SM Unit), (countOps x.cfg keys.length >>= f) m = f () m1 := by
    intro f
    rw [SM.bind_def]
    unfold countOps
    simp only
    rw [if_pos hops]
  rw [hcnt, need_bind_pass (by show _ ≤ m.stack.length; omega),
    count_bind _ (1 + keys.length) (by
      rw [show 2 + keys.length = (1 + keys.length) + 1 by omega]; exact negI32_small _ (by omega)) (by
      rw [hs1, Nat.add_comm 1, List.getElem?_cons_succ, List.getElem?_append_right (Nat.le_refl _), Nat.sub_self]
      rfl) hns, hns.1, failIf_bind_pass (by omega), Int.toNat_natCast, failIf_bind_pass (by omega),
    need_bind_pass (by show _ ≤ m.stack.length; omega), SM.bind_def, hc m1 rfl]
  simp only
  have hS : ∀ j (h : j < sigs.length), m1.stack[2 + keys.length + j]? = some sigs[j] := by
    intro j hj
    rw [hs1, show 2 + keys.length + j = (keys.length + (j + 1)) + 1 by omega, List.getElem?_cons_succ,
      List.getElem?_append_right (by omega), Nat.add_sub_cancel_left, List.getElem?_cons_succ,
      List.getElem?_append_left hj, List.getElem?_eq_getElem hj]
  have hK : ∀ j (h : j < keys.length), m1.stack[1 + j]? = some keys[j] := by
    intro j hj
    rw [hs1, Nat.add_comm 1, List.getElem?_cons_succ, List.getElem?_append_left hj, List.getElem?_eq_getElem hj]
  rcases multisigLoop_spec x.cfg check m1 keys sigs (2 + keys.length) 1 hS hK (by omega) (by omega) hle with
    ⟨e, a, r⟩ | ⟨hne, r⟩
  · left
    refine ⟨e, a, m1, ?_⟩
    rw [SM.bind_def, show 3 + keys.length = 2 + keys.length + 1 by omega, r]
  · right
    refine ⟨hne, ?_⟩
    rw [SM.bind_def, show 3 + keys.length = 2 + keys.length + 1 by omega, r]
    simp only
    have hg := greedy_iff check keys sigs
    generalize hok : greedy check sigs keys = ok at hg
    have hdec : decide (Matched check sigs keys) = ok := by
      cases ok
      · rw [decide_eq_false_iff_not, ← hg]; decide
      · rw [decide_eq_true_iff, ← hg]
    have hnot : ¬ Matched check sigs keys ↔ ok = false := by
      rw [← hg]; simp
    rw [hdec]
    simp only [hnot]
    have p1 := popArgs_plain x.cfg ok (nk :: (keys ++ [ns])) (sigs ++ dummy :: rest) m1 sigs.length (keys.length + 2)
      hw1 (by rw [hs1]; simp) (by simp)
    rw [show (nk :: (keys ++ [ns])).length + sigs.length = 2 + keys.length + sigs.length by simp; omega,
      show keys.length + 2 - (nk :: (keys ++ [ns])).length = 0 by simp] at p1
    have hf1 : Fits x.cfg (sigs ++ dummy :: rest) m.alt := by
      have := hw.1
      rw [hs] at this
      refine this.mono (fun f => ?_) (fun b hb => ?_)
      · simp only [List.map_cons, List.map_append, List.sum_cons, List.sum_append]; omega
      · simp only [List.mem_cons, List.mem_append] at hb ⊢; tauto
    have hf2 : Fits x.cfg (dummy :: rest) m.alt := by
      refine hf1.mono (fun f => ?_) (fun b hb => ?_)
      · simp only [List.map_cons, List.map_append, List.sum_cons, List.sum_append]; omega
      · simp only [List.mem_cons, List.mem_append] at hb ⊢; tauto
    have p2 := popArgs_sigs x.cfg ok sigs (dummy :: rest) (withStacks x.cfg m1 (sigs ++ dummy :: rest) m1.alt)
      (wf_withStacks _ _ _ _ hf1) rfl
    rw [SM.bind_def, p1]
    by_cases hnf : ok = false ∧ x.cfg.nullFail = true ∧ ∃ s ∈ sigs, s ≠ []
    · rw [if_pos hnf] at p2 ⊢
      obtain ⟨m', p2⟩ := p2
      exact ⟨m', by rw [p2]⟩
    · rw [if_neg hnf] at p2 ⊢
      rw [p2, withStacks_withStacks, withStacks_alt]
      simp only
      have hw2 : Wf x.cfg (withStacks x.cfg m1 (dummy :: rest) m1.alt) := wf_withStacks _ _ _ _ hf2
      rw [need_bind_pass (by simp), top_bind (-1) 0 (by omega) (by rfl)]
      by_cases hd : x.cfg.nullDummy = true ∧ dummy ≠ []
      · rw [if_pos hd, failIf_bind_fail (by simp [hd.1, hd.2])]
        exact ⟨_, rfl⟩
      · rw [if_neg hd, failIf_bind_pass (by
          simp only [Bool.and_eq_true, bne_iff_ne, ne_eq, List.length_eq_zero_iff]
          exact hd), pop_bind hw2 rfl, withStacks_withStacks, withStacks_alt]
        have hff : Fits x.cfg (numBool ok :: rest) m.alt := by
          have := hw.1
          rw [hs] at this
          exact fits_answer this
        have hw3 : Wf x.cfg (withStacks x.cfg m1 rest m1.alt) := wf_withStacks _ _ _ _ (fits_tail hf2)
        rw [(push_bind hw3 _ _).1 hff, withStacks_withStacks, withStacks_alt]
        rfl

/-- The checks are made with the answer of the document for the signature, the key, and the script code without
the pushes of the elements of the stack that follow the lowest; without a document they all succeed. -/
theorem C90_checks (x : Env) (ctr : Counter) (m : Machine) (n : Nat) :
    (x.doc = none → multisigChecker x.cfg x.doc ctr n m = .ok (fun _ _ => ⟨.ok, true⟩) m) ∧
    ∀ d p b above, x.doc = some d → ctr.toLastCodeSeparator = .ok p → m.stack = above ++ [b] → n ≤ above.length →
      multisigChecker x.cfg x.doc ctr n m = .ok (fun sig pub =>
        d.verifySig sig pub ((above.reverse.take n).foldl cleanupScriptCode p) x.cfg.flags) m := by
  constructor
  · intro h
    rw [h]; rfl
  · intro d p b above hd hp hs hn
    rw [hd]
    have hcode : multisigCode ctr n m = .ok ((above.reverse.take n).foldl cleanupScriptCode p) m := by
      have hq : scriptCode ctr m = .ok p m := by unfold scriptCode; rw [hp]; rfl
      unfold multisigCode
      refine (SM.bind_def _ _ _).trans ?_
      rw [hq]
      show (if 1 + n > m.stack.length then Res.stop Stop.ub m
        else Res.ok (((m.stack.reverse.drop 1).take n).foldl cleanupScriptCode p) m) = _
      rw [if_neg (by rw [hs]; simp; omega), hs]
      simp
    unfold multisigChecker
    simp only
    rw [SM.bind_def, hcode]
    rfl

/-- So if the extra element is the lowest of the stack, the pushes of the signatures are removed. -/
theorem C90_code_partial (x : Env) (ctr : Counter) (m : Machine) (nk ns dummy : Bytes) (keys sigs : List Bytes)
    (hs : m.stack = nk :: (keys ++ ns :: (sigs ++ [dummy]))) (d : Doc) (hd : x.doc = some d) (p : Program)
    (hp : ctr.toLastCodeSeparator = .ok p) :
    multisigChecker x.cfg x.doc ctr sigs.length m = .ok (fun sig pub =>
      d.verifySig sig pub (sigs.reverse.foldl cleanupScriptCode p) x.cfg.flags) m := by
  rw [(C90_checks x ctr m sigs.length).2 d p dummy (nk :: (keys ++ ns :: sigs)) hd hp (by rw [hs]; simp)
    (by simp; omega)]
  simp

/-- A document that accepts a signature only if the script code does not push it. -/
def refusesPushed : Doc :=
  ⟨fun _ => true, fun _ => true, fun sig _ p _ => ⟨.ok, !(p.contains (Instr.push sig))⟩⟩

/-- The claim is false if there is something below: then the push of the signature is still in the code.  The
locking script `push sig, DROP, 1, key, 1, CHECKMULTISIG` accepts the signature by the document's rule when
the stack holds only the extra element and the signature, and not when there is another element below. -/
theorem C90_false_below :
    evaluate { exampleEnv chronicleFlags with doc := some refusesPushed } 20 [0x00, 0x02, 7, 1]
      [0x02, 7, 1, 0x75, 0x51, 0x02, 9, 9, 0x51, 0xae] = .done ⟨.ok, true⟩ ∧
    evaluate { exampleEnv chronicleFlags with doc := some refusesPushed } 20 [0x51, 0x00, 0x02, 7, 1]
      [0x02, 7, 1, 0x75, 0x51, 0x02, 9, 9, 0x51, 0xae] = .done ⟨.ok, false⟩ := by decide +kernel

/-! ### Cases -/

-- the second of two checks gives an error
example : Erring (fun s k => if s = k then ⟨.sigDer, false⟩ else ⟨.ok, false⟩) .sigDer [[1]] [[2], [1]] :=
  .refused rfl rfl (by decide) (.here rfl (by decide))

-- two of three signatures, in order and out of order
example : Matched (fun s k => ⟨.ok, s == k⟩) [[1], [3]] [[1], [2], [3]] ∧
    ¬ Matched (fun s k => ⟨.ok, s == k⟩) [[3], [1]] [[1], [2], [3]] := by
  rw [← greedy_iff, ← greedy_iff]; decide

example : Count (exampleEnv genesisFlags).cfg [2] [[1], [2]].length ∧
    Wf (exampleEnv genesisFlags).cfg
      (withStacks (exampleEnv genesisFlags).cfg .init ([2] :: ([[1], [2]] ++ [1] :: ([[1]] ++ [] :: [[5]]))) []) := by
  refine ⟨⟨by decide, by decide, fun _ => ?_⟩, wf_withStacks _ _ _ _ (by decide +kernel)⟩
  exact (C81_encoding_shortest 2).2

end Verif.Script
