import Verif.Sig.AddressProps
import Verif.Script.MultisigProps

/-
C168: who can spend a payment to several keys.
-/

namespace Verif.Script

open Verif SM

/-! ### Specification -/

/-- The bytes of a script that pays to several public keys, of which `w` have to sign. -/
def toKeys (w : Nat) (keys : List Bytes) : Bytes :=
  UInt8.ofNat (0x50 + w) :: (keys.flatMap fun k => UInt8.ofNat k.length :: k) ++ [UInt8.ofNat (0x50 + keys.length), 0xae]

/-- The instructions of such a script. -/
def payToKeys (w : Nat) (keys : List Bytes) : Program :=
  ⟨UInt8.ofNat (0x50 + w), []⟩ :: keys.map Instr.push ++ [⟨UInt8.ofNat (0x50 + keys.length), []⟩, ⟨0xae, []⟩]

/-- At least one key has to sign, there are so many, and not more than sixteen; each has a length that is pushed in one way. -/
structure KeysOk (w : Nat) (keys : List Bytes) : Prop where
  some : 1 ≤ w
  enough : w ≤ keys.length
  few : keys.length ≤ 16
  short : ∀ k ∈ keys, 2 ≤ k.length ∧ k.length ≤ 75

/-! ### The script -/

theorem small_op (n : Nat) (h1 : 1 ≤ n) (h2 : n ≤ 16) :
    (UInt8.ofNat (0x50 + n)).toNat = 0x50 + n ∧ isPush (UInt8.ofNat (0x50 + n)) = true ∧
    (Instr.mk (UInt8.ofNat (0x50 + n)) []).pushData = [UInt8.ofNat n] ∧ (∀ c, Plain c ⟨UInt8.ofNat (0x50 + n), []⟩) ∧
    ∀ c, Count c [UInt8.ofNat n] n := by
  have hn : n = 1 ∨ n = 2 ∨ n = 3 ∨ n = 4 ∨ n = 5 ∨ n = 6 ∨ n = 7 ∨ n = 8 ∨ n = 9 ∨ n = 10 ∨ n = 11 ∨ n = 12 ∨ n = 13 ∨
      n = 14 ∨ n = 15 ∨ n = 16 := by omega
  rcases hn with rfl | rfl | rfl | rfl | rfl | rfl | rfl | rfl | rfl | rfl | rfl | rfl | rfl | rfl | rfl | rfl <;>
    exact ⟨by decide, by decide, by decide, fun c => ⟨by simp [Instr.verify, verifyInstruction, isMinimalPush, isPushData], fun _ => by decide,
      by decide, by decide, by decide, by decide, by decide⟩, fun c => ⟨by decide, by decide, fun _ => (C81_minimal_iff _).mp (by decide)⟩⟩

theorem mem_payToKeys {w : Nat} {keys : List Bytes} (h : KeysOk w keys) (c : Cfg) :
    (∀ i ∈ payToKeys w keys, Plain c i) ∧ ∀ i ∈ payToKeys w keys, i.Carriable := by
  have s1 := small_op w h.some (Nat.le_trans h.enough h.few)
  have s2 := small_op keys.length (Nat.le_trans h.some h.enough) h.few
  constructor
  · intro i hi
    simp only [payToKeys, List.mem_append, List.mem_cons, List.mem_map, List.not_mem_nil, or_false] at hi
    rcases hi with (rfl | ⟨k, hk, rfl⟩) | rfl | rfl
    · exact s1.2.2.2.1 c
    · exact plain_push (h.short k hk).1 (h.short k hk).2
    · exact s2.2.2.2.1 c
    · exact ⟨by simp [Instr.verify, verifyInstruction, isMinimalPush, isPushData], fun _ => by decide,
        by decide, by decide, by decide, by decide, by decide⟩
  · intro i hi
    simp only [payToKeys, List.mem_append, List.mem_cons, List.mem_map, List.not_mem_nil, or_false] at hi
    rcases hi with (rfl | ⟨k, hk, rfl⟩) | rfl | rfl
    · exact op_carriable _ (by rw [s1.1]; omega)
    · exact push_carriable _ (by have := (h.short k hk).2; omega)
    · exact op_carriable _ (by rw [s2.1]; omega)
    · exact op_carriable _ (by decide)

theorem keys_write {keys : List Bytes} (h : ∀ k ∈ keys, 2 ≤ k.length ∧ k.length ≤ 75) :
    (keys.map Instr.push).flatMap Instr.write = keys.flatMap fun k => UInt8.ofNat k.length :: k := by
  induction keys with
  | nil => rfl
  | cons k ks ih =>
    rw [List.map_cons, List.flatMap_cons, List.flatMap_cons, ih fun j hj => h j (by simp [hj]),
      push_write_length (h k (by simp)).1 (h k (by simp)).2]

theorem payToKeys_write {w : Nat} {keys : List Bytes} (h : KeysOk w keys) :
    (payToKeys w keys).flatMap Instr.write = toKeys w keys := by
  have s1 := small_op w h.some (Nat.le_trans h.enough h.few)
  have s2 := small_op keys.length (Nat.le_trans h.some h.enough) h.few
  unfold payToKeys toKeys
  rw [List.flatMap_append, List.flatMap_cons, keys_write h.short, writes_op _ (by rw [s1.1]; omega), List.flatMap_cons,
    List.flatMap_cons, writes_op _ (by rw [s2.1]; omega), writes_op 0xae (by decide)]
  rfl

theorem keys_length {keys : List Bytes} (h : ∀ k ∈ keys, 2 ≤ k.length ∧ k.length ≤ 75) :
    (keys.flatMap fun k => UInt8.ofNat k.length :: k).length ≤ 76 * keys.length := by
  induction keys with
  | nil => simp
  | cons k ks ih =>
    have h1 := ih fun j hj => h j (by simp [hj])
    have h2 := h k (by simp)
    rw [List.flatMap_cons, List.length_append, List.length_cons, List.length_cons]
    omega

theorem toKeys_length {w : Nat} {keys : List Bytes} (h : KeysOk w keys) : (toKeys w keys).length ≤ 1219 := by
  have := keys_length h.short
  have := h.few
  simp only [toKeys, List.length_append, List.length_cons, List.length_nil]
  omega

theorem payToKeys_isP2SH {w : Nat} {keys : List Bytes} (h : KeysOk w keys) : isP2SH (payToKeys w keys) = .ok false := by
  obtain ⟨_, cl⟩ := mem_payToKeys h ⟨0, 0, 0, 0, 0⟩
  have hl := toKeys_length h
  unfold isP2SH
  rw [compile_ok _ cl (flatMap_data_lt _ cl (by rw [payToKeys_write h]; omega)), payToKeys_write h]
  simp only [Except.map, Except.ok.injEq]
  unfold isP2SHBytes
  have hne : UInt8.ofNat (0x50 + w) ≠ 0xa9 := by
    intro hc
    have := (small_op w h.some (Nat.le_trans h.enough h.few)).1
    rw [hc] at this
    have e : (0xa9 : UInt8).toNat = 169 := by decide
    have := h.enough
    have := h.few
    omega
  unfold toKeys
  generalize UInt8.ofNat (0x50 + w) = a at hne
  simp [hne]

theorem payToKeys_decompile {w : Nat} {keys : List Bytes} (h : KeysOk w keys) :
    decompileS (toKeys w keys) = .ok (payToKeys w keys) := by
  obtain ⟨pl, cl⟩ := mem_payToKeys h ⟨0, 0, 0, 0, 0⟩
  have := decompile_plain pl cl
  rw [payToKeys_write h] at this
  exact this

/-! ### CHECKMULTISIG -/

theorem popArgs_inv {c : Cfg} {ok : Bool} : ∀ (n k : Nat) (m m' : Machine), n ≤ m.stack.length →
    popArgs c ok n k m = .ok () m' → ∃ A, A.length = n ∧ m.stack = A ++ m'.stack := by
  intro n
  induction n with
  | zero =>
    intro k m m' _ h
    unfold popArgs at h
    cases h
    exact ⟨[], rfl, rfl⟩
  | succ n ih =>
    intro k m m' hl h
    unfold popArgs at h
    match hs : m.stack with
    | [] => simp [hs] at hl
    | b :: s =>
      rw [top_bind (-1) 0 rfl (by rw [hs]; rfl)] at h
      by_cases hf : (!ok && c.nullFail && k == 0 && b.length != 0) = true
      · rw [failIf_bind_fail hf] at h; cases h
      · rw [failIf_bind_pass hf, SM.bind_def] at h
        cases e1 : pop c m with
        | stop _ _ => rw [e1] at h; cases h
        | ok _ m1 =>
          rw [e1] at h
          simp only at h
          obtain ⟨b1, h1⟩ := pop_inv e1
          rw [hs] at h1
          injection h1 with h1 h2
          obtain ⟨A, a1, a2⟩ := ih _ _ _ (by rw [← h2]; rw [hs] at hl; simpa using hl) h
          exact ⟨b :: A, by simp [a1], by rw [h2, a2]; rfl⟩

/-- The signatures were all matched, and no check gave an error. -/
def Passed (check : Bytes → Bytes → Result) (S K : List Bytes) : Prop :=
  (∀ e, ¬ Erring check e S K) ∧ greedy check S K = true

/-- Signatures that were matched without an error are good signatures of some of the keys, in order. -/
theorem greedy_good {check : Bytes → Bytes → Result} (K S : List Bytes) (hle : S.length ≤ K.length)
    (hp : Passed check S K) :
    ∃ chosen : List Bytes, chosen.Sublist K ∧ List.Forall₂ (fun s k => check s k = ⟨.ok, true⟩) S chosen := by
  obtain ⟨hne, h⟩ := hp
  induction K generalizing S with
  | nil => cases S with
    | nil => exact ⟨[], .slnil, .nil⟩
    | cons s S => cases h
  | cons k K ih => cases S with
    | nil => exact ⟨[], List.nil_sublist _, .nil⟩
    | cons s S =>
      unfold greedy at h
      have he : (check s k).error = .ok := by
        apply Classical.byContradiction
        intro he
        exact hne _ (.here rfl he)
      split at h
      · rename_i hs
        obtain ⟨ch, h1, h2⟩ := ih S (by simpa using hle) (fun e g => hne e (.accepted he hs g)) h
        refine ⟨k :: ch, h1.cons_cons k, .cons ?_ h2⟩
        cases hr : check s k with
        | mk a b => rw [hr] at he hs; simp only at he hs; rw [he, hs]
      · rename_i hs
        by_cases hl : (s :: S).length ≤ K.length
        · obtain ⟨ch, h1, h2⟩ := ih (s :: S) hl
            (fun e g => hne e (.refused he (by simpa using hs) (by simp at hl; omega) g)) h
          exact ⟨ch, h1.cons k, h2⟩
        · rw [greedy_short _ _ _ (by omega)] at h; cases h

/-- If every check that does not succeed is an error, the signatures are good with the first keys. -/
theorem greedy_first {check : Bytes → Bytes → Result} (K S : List Bytes) (hle : S.length ≤ K.length)
    (hstrict : ∀ s k, check s k = ⟨.ok, true⟩ ∨ (check s k).error ≠ .ok) (hp : Passed check S K) :
    List.Forall₂ (fun s k => check s k = ⟨.ok, true⟩) S (K.take S.length) := by
  obtain ⟨hne, h⟩ := hp
  induction K generalizing S with
  | nil => cases S with
    | nil => exact .nil
    | cons s S => cases h
  | cons k K ih => cases S with
    | nil => exact .nil
    | cons s S =>
      have hs : check s k = ⟨.ok, true⟩ := (hstrict s k).resolve_right fun he => hne _ (.here rfl he)
      unfold greedy at h
      rw [if_pos (by rw [hs])] at h
      rw [List.length_cons, List.take_succ_cons]
      exact .cons hs (ih S (by simpa using hle) (fun e g => hne e (.accepted (by rw [hs]) (by rw [hs]) g)) h)

theorem multisig_inv {c : Cfg} {d : Doc} {ctr : Counter} {code : Program} (hcode : ctr.toLastCodeSeparator = .ok code)
    {m m' : Machine} {nk ns : Bytes} {K S : List Bytes} {w : Nat} (hs : m.stack = nk :: (K ++ ns :: S))
    (hnk : Count c nk K.length) (hns : Count c ns w) (hle : w ≤ K.length) (hsz : 2 * K.length + 4 < 2 ^ 31)
    (h : opCheckMultisig c (some d) ctr false m = .ok () m') :
    ∃ sigs dummy rest ok, S = sigs ++ dummy :: rest ∧ sigs.length = w ∧ m'.stack = numBool ok :: rest ∧
      (c.nullDummy = true → dummy = []) ∧ (ok = true →
        Passed (fun s k => d.verifySig s k (((S.reverse.drop 1).take w).foldl cleanupScriptCode code) c.flags) sigs K) := by
  have hlen : m.stack.length = 2 + K.length + S.length := by rw [hs]; simp; omega
  unfold opCheckMultisig at h
  rw [need_bind_pass (by omega), count_bind (-1) 0 (by omega) (by rw [hs]; rfl) hnk, hnk.1,
    failIf_bind_pass (by omega), Int.toNat_natCast] at h
  by_cases hmax : K.length > c.maxPubKeys
  · rw [failIf_bind_fail hmax] at h; cases h
  rw [failIf_bind_pass hmax, SM.bind_def] at h
  cases ec : countOps c K.length m with
  | stop _ _ => rw [ec] at h; cases h
  | ok _ m1 =>
  rw [ec] at h
  simp only at h
  have hs1 : m1.stack = nk :: (K ++ ns :: S) := by
    unfold countOps at ec
    simp only at ec
    split at ec
    · cases ec; exact hs
    · cases ec
  have hl1 : m1.stack.length = 2 + K.length + S.length := by rw [hs1]; simp; omega
  rw [need_bind_pass (by omega),
    count_bind _ (1 + K.length) (by
      rw [show 2 + K.length = (1 + K.length) + 1 by omega]; exact negI32_small _ (by omega)) (by
      rw [hs1, Nat.add_comm 1, List.getElem?_cons_succ, List.getElem?_append_right (Nat.le_refl _), Nat.sub_self]
      rfl) hns, hns.1, failIf_bind_pass (by omega), Int.toNat_natCast, failIf_bind_pass (by omega)] at h
  by_cases hn : m1.stack.length < 3 + K.length + w
  · rw [need_bind_fail hn] at h; cases h
  rw [need_bind_pass (by omega), SM.bind_def] at h
  have hS : w + 1 ≤ S.length := by omega
  obtain ⟨sigs, dummy, rest, hsp, hw⟩ : ∃ sigs dummy rest, S = sigs ++ dummy :: rest ∧ sigs.length = w := by
    refine ⟨S.take w, S[w]'(by omega), S.drop (w + 1), ?_, by simp; omega⟩
    rw [← List.drop_eq_getElem_cons, List.take_append_drop]
  have hchk : multisigChecker c (some d) ctr w m1 = .ok (fun sig pub =>
      d.verifySig sig pub (((S.reverse.drop 1).take w).foldl cleanupScriptCode code) c.flags) m1 := by
    unfold multisigChecker
    simp only
    have hq : scriptCode ctr m1 = .ok code m1 := by unfold scriptCode; rw [hcode]; rfl
    have hc' : multisigCode ctr w m1 = .ok (((S.reverse.drop 1).take w).foldl cleanupScriptCode code) m1 := by
      unfold multisigCode
      refine (SM.bind_def _ _ _).trans ?_
      rw [hq]
      show (if 1 + w > m1.stack.length then Res.stop Stop.ub m1
        else Res.ok (((m1.stack.reverse.drop 1).take w).foldl cleanupScriptCode code) m1) = _
      rw [if_neg (by omega), hs1]
      have e : (nk :: (K ++ ns :: S)).reverse = S.reverse ++ (ns :: (K.reverse ++ [nk])) := by simp
      rw [e, List.drop_append_of_le_length (by simp; omega), List.take_append_of_le_length (by simp; omega)]
    rw [SM.bind_def, hc']
    rfl
  rw [hchk] at h
  simp only at h
  generalize hck : (fun sig pub => d.verifySig sig pub (((S.reverse.drop 1).take w).foldl cleanupScriptCode code) c.flags)
    = check at h
  have hSi : ∀ j (h : j < sigs.length), m1.stack[2 + K.length + j]? = some sigs[j] := by
    intro j hj
    rw [hs1, hsp, show 2 + K.length + j = (K.length + (j + 1)) + 1 by omega, List.getElem?_cons_succ,
      List.getElem?_append_right (by omega), Nat.add_sub_cancel_left, List.getElem?_cons_succ,
      List.getElem?_append_left hj, List.getElem?_eq_getElem hj]
  have hK : ∀ j (h : j < K.length), m1.stack[1 + j]? = some K[j] := by
    intro j hj
    rw [hs1, Nat.add_comm 1, List.getElem?_cons_succ, List.getElem?_append_left hj, List.getElem?_eq_getElem hj]
  subst hw
  rcases multisigLoop_spec c check m1 K sigs (2 + K.length) 1 hSi hK (by omega) (by omega) hle with
    ⟨e, a, r⟩ | ⟨hne, r⟩
  · rw [SM.bind_def, show 3 + K.length = 2 + K.length + 1 by omega, r] at h
    cases h
  · rw [SM.bind_def, show 3 + K.length = 2 + K.length + 1 by omega, r] at h
    simp only at h
    generalize hg : greedy check sigs K = ok at h
    rw [SM.bind_def] at h
    cases ep : popArgs c ok (2 + K.length + sigs.length) (K.length + 2) m1 with
    | stop _ _ => rw [ep] at h; cases h
    | ok _ m2 =>
      rw [ep] at h
      simp only at h
      obtain ⟨A, a1, a2⟩ := popArgs_inv _ _ _ _ (by omega) ep
      have hs2 : m2.stack = dummy :: rest := by
        have e : nk :: (K ++ ns :: S) = (nk :: (K ++ ns :: sigs)) ++ dummy :: rest := by rw [hsp]; simp
        rw [hs1, e] at a2
        exact ((List.append_inj a2 (by rw [a1]; simp; omega)).2).symm
      rw [need_bind_pass (by rw [hs2]; simp), top_bind (-1) 0 rfl (by rw [hs2]; rfl)] at h
      by_cases hd : (c.nullDummy && dummy.length != 0) = true
      · rw [failIf_bind_fail hd] at h; cases h
      rw [failIf_bind_pass hd, SM.bind_def] at h
      cases e1 : pop c m2 with
      | stop _ _ => rw [e1] at h; cases h
      | ok _ m3 =>
        rw [e1] at h
        simp only [SM.bind_def] at h
        cases e3 : push c (numBool ok) m3 with
        | stop _ _ => rw [e3] at h; cases h
        | ok _ m4 =>
          rw [e3] at h
          simp only [doIf, Bool.false_eq_true, if_false, SM.pure_def'] at h
          cases h
          obtain ⟨b1, h1⟩ := pop_inv e1
          rw [hs2] at h1
          injection h1 with _ h1
          refine ⟨sigs, dummy, rest, ok, hsp, rfl, by rw [push_inv e3, h1], fun hn => ?_, ?_⟩
          · simp only [hn, Bool.true_and, bne_iff_ne, ne_eq, Decidable.not_not, List.length_eq_zero_iff] at hd
            exact hd
          · subst hck
            intro hok
            exact ⟨hne, by rw [hg, hok]⟩

/-- The pushes of a script that pays to several keys. -/
def keyPushes (w : Nat) (keys : List Bytes) : Program :=
  ⟨UInt8.ofNat (0x50 + w), []⟩ :: keys.map Instr.push ++ [⟨UInt8.ofNat (0x50 + keys.length), []⟩]

theorem payToKeys_split (w : Nat) (keys : List Bytes) : payToKeys w keys = keyPushes w keys ++ [⟨0xae, []⟩] := by
  simp [payToKeys, keyPushes]

theorem keyPushes_push {w : Nat} {keys : List Bytes} (h : KeysOk w keys) : ∀ i ∈ keyPushes w keys, isPush i.op = true := by
  intro i hi
  simp only [keyPushes, List.mem_append, List.mem_cons, List.mem_map, List.not_mem_nil, or_false] at hi
  rcases hi with (rfl | ⟨k, hk, rfl⟩) | rfl
  · exact (small_op w h.some (Nat.le_trans h.enough h.few)).2.1
  · exact push_isPush (h.short k hk).1 (h.short k hk).2
  · exact (small_op keys.length (Nat.le_trans h.some h.enough) h.few).2.1

theorem keyPushes_data {w : Nat} {keys : List Bytes} (h : KeysOk w keys) :
    ((keyPushes w keys).map Instr.pushData).reverse = [UInt8.ofNat keys.length] :: (keys.reverse ++ [[UInt8.ofNat w]]) := by
  have hk : (keys.map Instr.push).map Instr.pushData = keys := by
    rw [List.map_map]
    conv_rhs => rw [← List.map_id keys]
    exact List.map_congr_left fun k hk => push_pushData k (by have := (h.short k hk).2; omega)
  unfold keyPushes
  rw [List.map_append, List.map_cons, hk, List.map_cons, List.map_nil, (small_op w h.some (Nat.le_trans h.enough h.few)).2.2.1,
    (small_op keys.length (Nat.le_trans h.some h.enough) h.few).2.2.1]
  simp

/-- The pushes at the end of a program whose values are known. -/
theorem last_many {p : Program} {sigs rest : List Bytes} {dummy : Bytes}
    (h : (p.map Instr.pushData).reverse = sigs ++ dummy :: rest) :
    ∃ us du ss, p = us ++ du :: ss ∧ us.map Instr.pushData = rest.reverse ∧ du.pushData = dummy ∧
      ss.map Instr.pushData = sigs.reverse := by
  have h' : p.map Instr.pushData = rest.reverse ++ dummy :: sigs.reverse := by
    rw [← List.reverse_reverse (p.map Instr.pushData), h]; simp
  obtain ⟨us, q, rfl, h1, h2⟩ := List.map_eq_append_iff.mp h'
  obtain ⟨du, ss, rfl, h3, h4⟩ := List.map_eq_cons_iff.mp h2
  exact ⟨us, du, ss, rfl, h1, h3, h4⟩

/-! ### Spending -/

/-- What the owners of the keys give: nothing, and the signatures in order. -/
def redeemKeys (sigs : List Bytes) : Program := Instr.push [] :: sigs.map Instr.push

/-- Its bytes. -/
def signedBy (sigs : List Bytes) : Bytes := 0x00 :: sigs.flatMap fun s => UInt8.ofNat s.length :: s

theorem push_nil_write : (Instr.push []).write = [0x00] := by decide

theorem redeemKeys_write {sigs : List Bytes} (h : ∀ s ∈ sigs, 2 ≤ s.length ∧ s.length ≤ 75) :
    (redeemKeys sigs).flatMap Instr.write = signedBy sigs := by
  unfold redeemKeys signedBy
  rw [List.flatMap_cons, keys_write h, push_nil_write]
  rfl

theorem mem_redeemKeys {sigs : List Bytes} (h : ∀ s ∈ sigs, 2 ≤ s.length ∧ s.length ≤ 75) (c : Cfg) :
    (∀ i ∈ redeemKeys sigs, Plain c i) ∧ (∀ i ∈ redeemKeys sigs, i.Carriable) ∧ isPushProgram (redeemKeys sigs) = true := by
  refine ⟨?_, ?_, ?_⟩
  · intro i hi
    simp only [redeemKeys, List.mem_cons, List.mem_map] at hi
    rcases hi with rfl | ⟨k, hk, rfl⟩
    · exact ⟨by cases c.minimal <;> decide, fun _ => by decide, by decide, by decide, by decide, by decide, by decide⟩
    · exact plain_push (h k hk).1 (h k hk).2
  · intro i hi
    simp only [redeemKeys, List.mem_cons, List.mem_map] at hi
    rcases hi with rfl | ⟨k, hk, rfl⟩
    · exact push_carriable _ (by simp)
    · exact push_carriable _ (by have := (h k hk).2; omega)
  · unfold isPushProgram
    rw [List.all_eq_true]
    intro i hi
    simp only [redeemKeys, List.mem_cons, List.mem_map] at hi
    rcases hi with rfl | ⟨k, hk, rfl⟩
    · decide
    · exact push_isPush (h k hk).1 (h k hk).2

theorem redeemKeys_data {sigs : List Bytes} (h : ∀ s ∈ sigs, 2 ≤ s.length ∧ s.length ≤ 75) :
    (redeemKeys sigs).map Instr.pushData = [] :: sigs := by
  unfold redeemKeys
  rw [List.map_cons, List.map_map, push_pushData _ (by simp)]
  congr 1
  conv_rhs => rw [← List.map_id sigs]
  exact List.map_congr_left fun k hk => push_pushData k (by have := (h k hk).2; omega)

theorem usage_short {l : List Bytes} (h : ∀ s ∈ l, 2 ≤ s.length ∧ s.length ≤ 75) : usage l ≤ 107 * l.length := by
  induction l with
  | nil => exact Nat.le_refl _
  | cons b l ih =>
    have h1 := ih fun s hs => h s (by simp [hs])
    have h2 := h b (by simp)
    rw [usage_cons, List.length_cons]
    omega

theorem usage_reverse (a : List Bytes) : usage a.reverse = usage a := by
  induction a with
  | nil => rfl
  | cons x a ih => rw [List.reverse_cons, usage_append, ih, usage_cons, usage_cons, show usage [] = 0 from rfl]; omega

/-- If the signatures are good with the first of the keys, no check gives an error. -/
theorem not_erring {check : Bytes → Bytes → Result} {S K : List Bytes} {n : Nat}
    (h : List.Forall₂ (fun s k => check s k = ⟨.ok, true⟩) S (K.take n)) (e : ScriptError) : ¬ Erring check e S K := by
  intro he
  induction he generalizing n with
  | here h1 h2 =>
    cases n with
    | zero => simp at h
    | succ n =>
      rw [List.take_succ_cons] at h
      cases h with
      | cons a _ => rw [a] at h1; exact h2 h1.symm
  | accepted _ _ _ ih =>
    cases n with
    | zero => simp at h
    | succ n =>
      rw [List.take_succ_cons] at h
      cases h with
      | cons _ b => exact ih b
  | refused _ h2 _ _ _ =>
    cases n with
    | zero => simp at h
    | succ n =>
      rw [List.take_succ_cons] at h
      cases h with
      | cons a _ => rw [a] at h2; cases h2

theorem take_reverse_drop (l : List Bytes) (w : Nat) (h : w ≤ l.length) : (l.drop (l.length - w)).reverse = l.reverse.take w := by
  rw [List.reverse_drop]
  congr 1
  omega

theorem run_payToKeys (x : Env) (d : Doc) (hd : x.doc = some d) (sigs keys : List Bytes) (hk : KeysOk sigs.length keys)
    (hsig : ∀ s ∈ sigs, 2 ≤ s.length ∧ s.length ≤ 75) (ho : keys.length + 2 ≤ x.cfg.maxOps) (hp : keys.length ≤ x.cfg.maxPubKeys)
    (hm : Roomy x.cfg 3600) (k : Nat) (pre : Bytes) (prelen : pre.length ≤ 1300)
    (hgood : List.Forall₂ (fun s k => d.verifySig s k (sigs.foldl cleanupScriptCode (payToKeys sigs.length keys)) x.cfg.flags =
      ⟨.ok, true⟩) sigs (keys.drop (keys.length - sigs.length))) :
    ∃ m, machineRun x ((keyPushes sigs.length keys).length + (k + 1 + 1)) (atP pre (payToKeys sigs.length keys) pre.length)
      (machineAt x.cfg ([] :: sigs).reverse 1) = some (.ret ⟨.ok, true⟩, m) := by
  obtain ⟨pl, cl⟩ := mem_payToKeys hk x.cfg
  have wl := payToKeys_write hk
  have hlen := toKeys_length hk
  have hfew := hk.few
  have henough := hk.enough
  have hbig : (pre ++ (payToKeys sigs.length keys).flatMap Instr.write).length < 2 ^ 31 := by
    rw [wl, List.length_append]; omega
  have hpushes : isPushProgram (keyPushes sigs.length keys) = true := by
    unfold isPushProgram
    rw [List.all_eq_true]
    exact keyPushes_push hk
  generalize hst : [UInt8.ofNat keys.length] :: (keys.reverse ++ [UInt8.ofNat sigs.length] :: (sigs.reverse ++ [[]])) = st
  have hfit : Fits x.cfg st [] := by
    refine fits_roomy hm _ ?_ ?_ ?_
    · have h1 := usage_short hk.short
      have h2 := usage_short hsig
      rw [← hst, usage_cons, usage_append, usage_cons, usage_append, usage_reverse, usage_reverse, usage_cons,
        show usage [] = 0 from rfl]
      simp only [List.length_cons, List.length_nil]
      omega
    · rw [← hst]; simp; omega
    · intro b hb
      rw [← hst] at hb
      simp only [List.mem_cons, List.mem_append, List.mem_reverse, List.not_mem_nil, or_false] at hb
      rcases hb with rfl | hb | rfl | hb | rfl
      · simp
      · have := (hk.short b hb).2; omega
      · simp
      · have := (hsig b hb).2; omega
      · simp
  have hfit0 : Fits x.cfg ([] :: sigs).reverse [] := by
    refine hfit.mono (fun f => ?_) (fun b hb => ?_)
    · rw [← hst]
      simp only [List.map_cons, List.map_append, List.sum_cons, List.sum_append, List.reverse_cons]
      omega
    · rw [← hst]
      simp only [List.mem_cons, List.mem_append, List.reverse_cons] at hb ⊢
      tauto
  have e0 : ((keyPushes sigs.length keys).map Instr.pushData).reverse ++ ([] :: sigs).reverse = st := by
    rw [keyPushes_data hk, ← hst]
    simp
  have hrun := run_pushes x (keyPushes sigs.length keys) [⟨0xae, []⟩] hpushes (by rw [← payToKeys_split]; exact cl) (k + 1 + 1)
    pre pre.length (machineAt x.cfg ([] :: sigs).reverse 1) (by rw [← payToKeys_split]; exact hbig) (machineAt_wf hfit0 1)
    (by simp [machineAt]) (by
      rw [show (machineAt x.cfg ([] :: sigs).reverse 1).stack = ([] :: sigs).reverse from rfl,
        show (machineAt x.cfg ([] :: sigs).reverse 1).alt = [] from rfl, e0]
      exact hfit)
  rw [payToKeys_split, hrun, show (machineAt x.cfg ([] :: sigs).reverse 1).stack = ([] :: sigs).reverse from rfl,
    show (machineAt x.cfg ([] :: sigs).reverse 1).alt = [] from rfl, e0, machineAt_withStacks]
  have code := toLastSep pre (payToKeys sigs.length keys) (keyPushes sigs.length keys) _ (payToKeys_split sigs.length keys) pl cl
  have hbig2 : (pre ++ (keyPushes sigs.length keys).flatMap Instr.write ++ [Instr.mk 0xae []].flatMap Instr.write).length < 2 ^ 31 := by
    rw [payToKeys_split, List.flatMap_append, ← List.append_assoc] at hbig
    exact hbig
  have wae : (Instr.mk 0xae []).write = [0xae] := writes_op _ (by decide)
  generalize hctr : atP (pre ++ (keyPushes sigs.length keys).flatMap Instr.write) [⟨0xae, []⟩] pre.length = ctr at code
  have hnext : ctr.next = [0xae] := by rw [← hctr, atP_next, wae]
  have s1 := step_counted x ctr 0xae st 1 hnext (by decide) (by omega)
  have hstack : (machineAt x.cfg st 2).stack = [UInt8.ofNat keys.length] :: (keys.reverse ++ [UInt8.ofNat sigs.length] ::
      (sigs.reverse ++ [[]])) := hst.symm
  have hchk : ∀ m', m'.stack = (machineAt x.cfg st 2).stack → multisigChecker x.cfg x.doc ctr sigs.reverse.length m' =
      .ok (fun s k => d.verifySig s k (sigs.foldl cleanupScriptCode (payToKeys sigs.length keys)) x.cfg.flags) m' := by
    intro m' hm'
    have := C90_code_partial x ctr m' _ _ [] keys.reverse sigs.reverse (by rw [hm', hstack]) d hd _ code
    rw [List.reverse_reverse] at this
    exact this
  have hgood' : List.Forall₂ (fun s k => d.verifySig s k (sigs.foldl cleanupScriptCode (payToKeys sigs.length keys)) x.cfg.flags =
      ⟨.ok, true⟩) sigs.reverse (keys.reverse.take sigs.length) := by
    rw [← take_reverse_drop keys sigs.length henough]
    exact List.forall₂_reverse_iff.mpr hgood
  have hc90 := C90_multisig x ctr (machineAt x.cfg st 2) _ _ [] keys.reverse sigs.reverse [] _ (machineAt_wf hfit 2) hstack
    (by rw [List.length_reverse]; exact (small_op keys.length (Nat.le_trans hk.some henough) hfew).2.2.2.2 _)
    (by rw [List.length_reverse]; exact (small_op sigs.length hk.some (Nat.le_trans henough hfew)).2.2.2.2 _)
    (by simpa using hp) (by simp [machineAt]; omega) (by simpa using henough) (by simp; omega) hchk
  have hmat : Matched (fun s k => d.verifySig s k (sigs.foldl cleanupScriptCode (payToKeys sigs.length keys)) x.cfg.flags)
      sigs.reverse keys.reverse :=
    ⟨_, List.take_sublist _ _, hgood'.imp fun _ _ h => congrArg Result.success h⟩
  rcases hc90 with ⟨e, he, _⟩ | ⟨_, h90⟩
  · exact absurd he (not_erring hgood' e)
  · rw [if_neg (fun h => h.1 hmat), if_neg (by simp)] at h90
    simp only [hmat, decide_true] at h90
    have hans : answered x.cfg (machineAt x.cfg st 2) keys.reverse.length [] true = machineAt x.cfg [numBool true] (2 + keys.length) := by
      unfold answered
      rw [List.length_reverse]
      have : ({ machineAt x.cfg st 2 with opCount := (machineAt x.cfg st 2).opCount + keys.length } : Machine) =
        machineAt x.cfg st (2 + keys.length) := rfl
      rw [this]
      exact machineAt_withStacks _ _ _ _
    rw [hans] at h90
    rw [h90] at s1
    rw [← hctr] at s1 ⊢
    rw [run_ok s1 (fun j hj => cl j (by rw [payToKeys_split]; simp at hj ⊢; tauto)) hbig2 (k + 1)]
    rw [run_stop (end_at x _ rfl true (2 + keys.length)) k]
    exact ⟨_, rfl⟩

theorem keys_inv (x : Env) (d : Doc) (hd : x.doc = some d) (ux : Bytes) (w : Nat) (keys : List Bytes) (hk : KeysOk w keys)
    (ho : OnlyPushes x.cfg ux) (hl : 2 * ux.length + 1221 < 2 ^ 31) (n : Nat) (hn : 2 * ux.length + 1221 < n)
    (hv : ∃ r, evaluate x n ux (toKeys w keys) = .done r ∧ r.verified = true) :
    ∃ us dummy sigs, decompileS ux = .ok (us ++ dummy :: sigs) ∧ isPushProgram (us ++ dummy :: sigs) = true ∧ sigs.length = w ∧
      (x.cfg.cleanStack = true → us = []) ∧ (x.cfg.nullDummy = true → dummy.pushData = []) ∧
      Passed (fun s k => d.verifySig s k
        (((((us ++ dummy :: sigs).map Instr.pushData).drop 1).take w).foldl cleanupScriptCode (payToKeys w keys)) x.cfg.flags)
        (sigs.map Instr.pushData).reverse keys.reverse := by
  have hlen := toKeys_length hk
  obtain ⟨pl, cl⟩ := mem_payToKeys hk x.cfg
  obtain ⟨u, r, n, m, m', hu, pu, hpv, hr, he, hst, hrun⟩ := lock_run (payToKeys_decompile hk)
    (.inr (payToKeys_isP2SH hk)) ho (by omega) (by omega) hv
  generalize hpre : ux ++ [0xab] = pre at hrun
  have hbig : (pre ++ (payToKeys w keys).flatMap Instr.write).length < 2 ^ 31 := by
    rw [← hpre, payToKeys_write hk]; simp; omega
  rw [payToKeys_split] at hrun
  obtain ⟨n1, m1, a1, a2, a3⟩ := run_pushes_inv hr (keyPushes w keys) pre pre.length n m (keyPushes_push hk)
    (by rw [← payToKeys_split]; exact cl) (by rw [← payToKeys_split]; exact hbig) he hrun
  rw [keyPushes_data hk] at a2
  obtain ⟨n2, m2, m3, b1, b2, b3, b4⟩ := run_inv_sep (fun j hj => cl j (by rw [payToKeys_split]; simp at hj ⊢; tauto))
    (by rw [payToKeys_split] at hbig; simpa using hbig) (by decide) a1 a3 hr
  rw [show execOp x _ (Instr.mk 0xae []).op = opCheckMultisig x.cfg x.doc _ false from rfl, hd] at b2
  have hfew := hk.few
  have henough := hk.enough
  obtain ⟨sigs, dummy, rest, ok, e1, e2, e3, e4, e5⟩ := multisig_inv
    (toLastSep pre (payToKeys w keys) (keyPushes w keys) _ (payToKeys_split w keys) pl cl)
    (K := keys.reverse) (S := m.stack) (w := w) (nk := [UInt8.ofNat keys.length]) (ns := [UInt8.ofNat w])
    (by rw [b1, a2]; simp) (by rw [List.length_reverse]; exact (small_op keys.length (Nat.le_trans hk.some henough) hfew).2.2.2.2 _)
    ((small_op w hk.some (Nat.le_trans henough hfew)).2.2.2.2 _) (by simpa using henough) (by simp; omega) b2
  obtain ⟨b, s, f1, f2, f3⟩ := end_inv b4 hr
  rw [e3] at f1
  injection f1 with f1 f4
  subst f1 f4
  have hok : ok = true := by
    cases ok with
    | true => rfl
    | false => exact absurd (by decide) f2
  have g2 := e5 hok
  rw [hst] at e1
  obtain ⟨us, du, ss, j1, j2, j3, j4⟩ := last_many e1
  subst j1
  have hrev : m.stack.reverse = (us ++ du :: ss).map Instr.pushData := by rw [hst, List.reverse_reverse]
  rw [hrev] at g2
  refine ⟨us, du, ss, hu, pu, ?_, ?_, fun h => by rw [j3]; exact e4 h, ?_⟩
  · have := congrArg List.length j4
    rw [List.length_map, List.length_reverse] at this
    omega
  · intro h
    have := f3 h
    rw [this] at j2
    simpa using j2
  · rw [j4, List.reverse_reverse]
    exact g2

/-- CHECKMULTISIGVERIFY of no signatures with no keys ends the run with success. -/
theorem multisigVerify_wins {c : Cfg} {d : Doc} {ctr : Counter} {code : Program}
    (hcode : ctr.toLastCodeSeparator = .ok code) (m : Machine) (hs : m.stack = [[], [], []])
    (hw : Wf c m) (ho : m.opCount ≤ c.maxOps) :
    ∃ m', opCheckMultisig c (some d) ctr true m = .stop (.ret ⟨.ok, true⟩) m' := by
  have hz : Count c [] 0 := by
    exact ⟨rfl, by simp, fun _ _ _ => Nat.zero_le _⟩
  unfold opCheckMultisig
  rw [need_bind_pass (by rw [hs]; simp), count_bind (-1) 0 (by omega) (by rw [hs]; rfl) hz, hz.1,
    failIf_bind_pass (by omega), Int.toNat_natCast, failIf_bind_pass (by omega)]
  have hcnt : ∀ (f : Unit → SM Unit), (countOps c 0 >>= f) m = f () m := by
    intro f
    rw [SM.bind_def]
    unfold countOps
    simp only [Nat.add_zero]
    rw [if_pos ho]
  rw [hcnt, need_bind_pass (by rw [hs]; simp), count_bind _ 1 (by decide) (by rw [hs]; rfl) hz, hz.1,
    failIf_bind_pass (by omega), Int.toNat_natCast, failIf_bind_pass (by omega), need_bind_pass (by rw [hs]; simp),
    SM.bind_def]
  have hch : multisigChecker c (some d) ctr 0 m = .ok (fun s k => d.verifySig s k code c.flags) m := by
    unfold multisigChecker
    simp only
    rw [SM.bind_def]
    have : multisigCode ctr 0 m = .ok code m := by
      unfold multisigCode
      refine (SM.bind_def _ _ _).trans ?_
      unfold scriptCode
      rw [hcode]
      simp [SM.pure_def', hs]
    rw [this]
    rfl
  rw [hch]
  simp only
  rw [SM.bind_def, multisigLoop.eq_def]
  simp only [if_true, SM.pure_def']
  have hf := hw.1
  rw [hs] at hf
  have p1 := popArgs_plain c true [[], []] [[]] m 0 (0 + 2) hw hs (by simp)
  rw [show ([[], []] : List Bytes).length + 0 = 2 + 0 + 0 by rfl] at p1
  have h2 : Wf c (withStacks c m [[]] m.alt) := wf_withStacks _ _ _ _ (fits_tail (fits_tail hf))
  have h3 : Wf c (withStacks c m [] m.alt) := wf_withStacks _ _ _ _ (fits_tail (fits_tail (fits_tail hf)))
  have hp0 : ∀ k m', popArgs c true 0 k m' = .ok () m' := fun _ _ => rfl
  rw [SM.bind_def, p1, hp0]
  simp only
  rw [need_bind_pass (by simp), top_bind (-1) 0 (by omega) (by rfl), failIf_bind_pass (by simp), pop_bind h2 rfl,
    withStacks_withStacks, withStacks_alt]
  have hff : Fits c (numBool true :: []) m.alt := fits_answer (A := []) (S := []) hf
  simp only [doIf, if_true]
  rw [(push_bind h3 (numBool true) _).1 hff]
  exact ⟨_, pop_bind (f := fun _ => finish true) (wf_withStacks _ _ _ _ hff) rfl⟩

/-! ### Theorems -/

/-- **C168, partial** If the unlocking script can only push, whoever spends a payment to several keys gives good signatures of as many of
them as have to sign, in the order of the keys and each of another key, and one value before them.  Missing: that it is so for every unlocking script
(`C168_false_anyone`). -/
theorem C168_keys_partial (x : Env) (d : Doc) (hd : x.doc = some d) (ux : Bytes) (w : Nat) (keys : List Bytes) (hk : KeysOk w keys)
    (ho : OnlyPushes x.cfg ux) (hl : 2 * ux.length + 1221 < 2 ^ 31) (n : Nat) (hn : 2 * ux.length + 1221 < n)
    (hv : ∃ r, evaluate x n ux (toKeys w keys) = .done r ∧ r.verified = true) :
    ∃ us dummy sigs, decompileS ux = .ok (us ++ dummy :: sigs) ∧ isPushProgram (us ++ dummy :: sigs) = true ∧ sigs.length = w ∧
      (x.cfg.cleanStack = true → us = []) ∧ (x.cfg.nullDummy = true → dummy.pushData = []) ∧
      ∃ chosen : List Bytes, chosen.Sublist keys ∧
        List.Forall₂ (fun s k => d.verifySig s.pushData k
          (((((us ++ dummy :: sigs).map Instr.pushData).drop 1).take w).foldl cleanupScriptCode (payToKeys w keys)) x.cfg.flags =
            ⟨.ok, true⟩) sigs chosen := by
  obtain ⟨us, du, ss, h1, h2, h3, h4, h5, h6⟩ := keys_inv x d hd ux w keys hk ho hl n hn hv
  obtain ⟨ch, g1, g2⟩ := greedy_good _ _ (by simp [h3, hk.enough]) h6
  refine ⟨us, du, ss, h1, h2, h3, h4, h5, ch.reverse, ?_, ?_⟩
  · have := g1.reverse
    rwa [List.reverse_reverse] at this
  · have g3 := List.forall₂_reverse_iff.mpr g2
    rw [List.reverse_reverse, List.forall₂_map_left_iff] at g3
    exact g3

/-- **C168** The owners of the last keys of a payment to several keys spend it, by pushing nothing and their signatures. -/
theorem C168_last (x : Env) (d : Doc) (hd : x.doc = some d) (sigs keys : List Bytes) (hk : KeysOk sigs.length keys)
    (hsig : ∀ s ∈ sigs, 2 ≤ s.length ∧ s.length ≤ 75) (ho : keys.length + 2 ≤ x.cfg.maxOps) (hp : keys.length ≤ x.cfg.maxPubKeys)
    (hm : Roomy x.cfg 3600) (n : Nat) (hn : 60 ≤ n)
    (hgood : List.Forall₂ (fun s k => d.verifySig s k (sigs.foldl cleanupScriptCode (payToKeys sigs.length keys)) x.cfg.flags =
      ⟨.ok, true⟩) sigs (keys.drop (keys.length - sigs.length))) :
    evaluate x n (signedBy sigs) (toKeys sigs.length keys) = .done ⟨.ok, true⟩ := by
  obtain ⟨pl, cl⟩ := mem_payToKeys hk x.cfg
  obtain ⟨pu, cu, ip⟩ := mem_redeemKeys hsig x.cfg
  have hfew := hk.few
  have henough := hk.enough
  have hlen := toKeys_length hk
  have hul : (signedBy sigs).length ≤ 1 + 76 * sigs.length := by
    have := keys_length hsig
    unfold signedBy
    rw [List.length_cons]
    omega
  have hrl : (redeemKeys sigs).length = sigs.length + 1 := by simp [redeemKeys]
  have hkl : (keyPushes sigs.length keys).length = keys.length + 2 := by simp [keyPushes]
  have hfit : Fits x.cfg ((redeemKeys sigs).map Instr.pushData).reverse [] := by
    rw [redeemKeys_data hsig]
    have h2 := usage_short hsig
    refine fits_roomy hm _ ?_ (by simp; omega) ?_
    · rw [usage_reverse, usage_cons]
      simp only [List.length_nil]
      omega
    · intro b hb
      simp only [List.mem_reverse, List.mem_cons] at hb
      rcases hb with rfl | hb
      · simp
      · have := (hsig b hb).2; omega
  obtain ⟨k, rfl⟩ : ∃ k, n = (redeemKeys sigs).length + (((keyPushes sigs.length keys).length + (k + 1 + 1)) + 1) :=
    ⟨n - (redeemKeys sigs).length - (keyPushes sigs.length keys).length - 3, by omega⟩
  rw [← redeemKeys_write hsig, ← payToKeys_write hk, evaluate_plain pu pl cu cl ip (payToKeys_isP2SH hk) (by
    rw [redeemKeys_write hsig, payToKeys_write hk]; omega) hfit (by omega), machineAt_start, redeemKeys_data hsig]
  obtain ⟨m, hr⟩ := run_payToKeys x d hd sigs keys hk hsig ho hp hm k ((redeemKeys sigs).flatMap Instr.write ++ [0xab]) (by
    rw [redeemKeys_write hsig, List.length_append, List.length_singleton]; omega) hgood
  rw [hr]
  rfl

/-- **C168, false as stated** If every check of a signature that does not succeed is an error, as it is by the rules that demand null-fail and strict
encoding, it is not enough that as many owners sign as have to: only the owners of the last keys spend the payment. -/
theorem C168_false_others (x : Env) (d : Doc) (hd : x.doc = some d)
    (hstrict : ∀ s k code, d.verifySig s k code x.cfg.flags = ⟨.ok, true⟩ ∨ (d.verifySig s k code x.cfg.flags).error ≠ .ok)
    (ux : Bytes) (w : Nat) (keys : List Bytes) (hk : KeysOk w keys)
    (ho : OnlyPushes x.cfg ux) (hl : 2 * ux.length + 1221 < 2 ^ 31) (n : Nat) (hn : 2 * ux.length + 1221 < n)
    (hv : ∃ r, evaluate x n ux (toKeys w keys) = .done r ∧ r.verified = true) :
    ∃ us dummy sigs, decompileS ux = .ok (us ++ dummy :: sigs) ∧ isPushProgram (us ++ dummy :: sigs) = true ∧ sigs.length = w ∧
      (x.cfg.cleanStack = true → us = []) ∧ (x.cfg.nullDummy = true → dummy.pushData = []) ∧
      List.Forall₂ (fun s k => d.verifySig s.pushData k
        (((((us ++ dummy :: sigs).map Instr.pushData).drop 1).take w).foldl cleanupScriptCode (payToKeys w keys)) x.cfg.flags =
          ⟨.ok, true⟩) sigs (keys.drop (keys.length - w)) := by
  obtain ⟨us, du, ss, h1, h2, h3, h4, h5, h6⟩ := keys_inv x d hd ux w keys hk ho hl n hn hv
  have g2 := greedy_first _ _ (by simp [h3, hk.enough]) (fun s k => hstrict s k _) h6
  refine ⟨us, du, ss, h1, h2, h3, h4, h5, ?_⟩
  rw [List.length_reverse, List.length_map, h3, ← take_reverse_drop keys w hk.enough] at g2
  have g3 := List.forall₂_reverse_iff.mp g2
  rw [List.forall₂_map_left_iff] at g3
  exact g3

/-- C168 fails where unlocking scripts may do more than push, as before Genesis: the four bytes that check none of no
signatures spend every output with an ordinary script, without any key. -/
theorem C168_false_anyone (x : Env) (d : Doc) (hd : x.doc = some d) (hp : x.cfg.sigPushOnly = false) (l : Program)
    (pl : ∀ i ∈ l, Plain x.cfg i) (cl : ∀ i ∈ l, i.Carriable) (hs : isP2SH l = .ok false)
    (hlen : (l.flatMap Instr.write).length + 10 < 2 ^ 31) (ho : 1 ≤ x.cfg.maxOps) (hm : Roomy x.cfg 100) (n : Nat) (hn : 4 ≤ n) :
    evaluate x n [0x00, 0x00, 0x00, 0xaf] (l.flatMap Instr.write) = .done ⟨.ok, true⟩ := by
  have paf : Plain x.cfg ⟨0xaf, []⟩ :=
    ⟨by simp [Instr.verify, verifyInstruction, isMinimalPush, isPushData], fun _ => by decide,
      by decide, by decide, by decide, by decide, by decide⟩
  have p0 : Plain x.cfg ⟨0x00, []⟩ := (mem_redeemKeys (sigs := []) (by simp) x.cfg).1 _ (.head _)
  have pab : Plain x.cfg ⟨0xab, []⟩ := plain_op _ (by simp)
  have hu : decompileS [0x00, 0x00, 0x00, 0xaf] = .ok [⟨0x00, []⟩, ⟨0x00, []⟩, ⟨0x00, []⟩, ⟨0xaf, []⟩] := by decide
  have hprep := prepare_split (c := x.cfg) hu (decompile_plain pl cl) (.inr hs) (.inl hp)
  generalize hall : [Instr.mk 0x00 [], ⟨0x00, []⟩, ⟨0x00, []⟩, ⟨0xaf, []⟩] ++ [Instr.mk 0xab []] ++ l = all at hprep
  have hsplit : all = [Instr.mk 0x00 [], ⟨0x00, []⟩, ⟨0x00, []⟩] ++ (Instr.mk 0xaf [] :: Instr.mk 0xab [] :: l) := by
    rw [← hall]; simp
  have pall : ∀ i ∈ all, Plain x.cfg i := by
    intro i hi
    rw [hsplit] at hi
    simp only [List.mem_append, List.mem_cons, List.not_mem_nil, or_false] at hi
    rcases hi with (rfl | rfl | rfl) | rfl | rfl | hi
    · exact p0
    · exact p0
    · exact p0
    · exact paf
    · exact pab
    · exact pl i hi
  rw [preVerify_allPlain pall] at hprep
  obtain ⟨hcar, hsz⟩ := prepare_ok hprep
  simp only [List.length_cons, List.length_nil] at hsz
  obtain ⟨c, c', h1, _, h3⟩ := evaluate_prepared (n := n) hprep (by simp only [List.length_cons, List.length_nil]; omega)
  rw [start_atP _ hcar (by omega)] at h1
  injection h1 with h1
  subst h1
  rw [h3, if_neg (by simp)]
  obtain ⟨k, rfl⟩ : ∃ k, n = 3 + (k + 1) := ⟨n - 4, by omega⟩
  have hf : Fits x.cfg [[], [], []] [] := fits_roomy hm _ (by decide) (by simp) (by simp)
  have code := toLastSep [] all _ _ hsplit pall hcar
  rw [hsplit] at hcar hsz
  have hrun := run_pushes x [Instr.mk 0x00 [], ⟨0x00, []⟩, ⟨0x00, []⟩] (Instr.mk 0xaf [] :: Instr.mk 0xab [] :: l) (by decide)
    hcar (k + 1) [] 0 .init (by rw [List.nil_append]; omega) (wf_init _) (by simp [Machine.init]) hf
  rw [hsplit]
  rw [show 3 + (k + 1) = [Instr.mk 0x00 [], ⟨0x00, []⟩, ⟨0x00, []⟩].length + (k + 1) from rfl, hrun]
  obtain ⟨m', hst⟩ : ∃ m', step x (atP ([] ++ [Instr.mk 0x00 [], ⟨0x00, []⟩, ⟨0x00, []⟩].flatMap Instr.write)
      (Instr.mk 0xaf [] :: Instr.mk 0xab [] :: l) 0) (withStacks x.cfg .init [[], [], []] []) = .stop (.ret ⟨.ok, true⟩) m' := by
    rw [C23_step x _ 0xaf [] _ (by rw [atP_next]; exact writes_op _ (by decide)) (by decide) (by simp [withStacks, Machine.init])
      (by simp [withStacks, Machine.init]; omega)]
    rw [show ∀ ctr, execOp x ctr 0xaf = opCheckMultisig x.cfg x.doc ctr true from fun _ => rfl, hd]
    exact multisigVerify_wins code _ rfl (wf_withStacks _ _ _ _ hf) (by simpa [withStacks, Machine.init] using ho)
  have hst' := run_stop hst k
  rw [show ([Instr.mk 0x00 [], ⟨0x00, []⟩, ⟨0x00, []⟩].map Instr.pushData).reverse ++ Machine.init.stack = [[], [], []] from rfl,
    show Machine.init.alt = [] from rfl, hst']
  rfl

/-! ### Cases -/

/-- Each key has one signature, which ends as the key does; anything else is an error. -/
def ownDoc : Doc := ⟨fun _ => true, fun _ => true, fun s p _ _ =>
  if s.drop 1 == p.drop 1 then ⟨.ok, true⟩ else ⟨.sigNullfail, false⟩⟩

-- two of three keys: the owners of the last two spend, those of the first two do not, nor do the same two in the other order
example :
    let env : Env := { exampleEnv genesisFlags with doc := some ownDoc }
    let keys : List Bytes := [[0x77, 1], [0x77, 2], [0x77, 3]]
    KeysOk 2 keys ∧ keys.length + 2 ≤ env.cfg.maxOps ∧ keys.length ≤ env.cfg.maxPubKeys ∧ OnlyPushes env.cfg (signedBy [[0x55, 2], [0x55, 3]]) ∧
    (∀ s k code, ownDoc.verifySig s k code env.cfg.flags = ⟨.ok, true⟩ ∨ (ownDoc.verifySig s k code env.cfg.flags).error ≠ .ok) ∧
    evaluate env 100 (signedBy [[0x55, 2], [0x55, 3]]) (toKeys 2 keys) = .done ⟨.ok, true⟩ ∧
    evaluate env 100 (signedBy [[0x55, 1], [0x55, 2]]) (toKeys 2 keys) = .done ⟨.sigNullfail, false⟩ ∧
    evaluate env 100 (signedBy [[0x55, 3], [0x55, 2]]) (toKeys 2 keys) = .done ⟨.sigNullfail, false⟩ := by
  refine ⟨⟨by decide, by decide, by decide, by decide⟩, by decide +kernel, by decide +kernel, .inl (by decide +kernel), ?_,
    by decide +kernel, by decide +kernel, by decide +kernel⟩
  intro s k code
  show (if _ then _ else _ : Result) = _ ∨ (if _ then _ else _ : Result).error ≠ _
  split
  · exact .inl rfl
  · exact .inr (by decide)

-- before Genesis, nobody's signature spends it
example :
    let env : Env := { exampleEnv preGenesisFlags with doc := some ownDoc }
    env.cfg.sigPushOnly = false ∧ 1 ≤ env.cfg.maxOps ∧
    evaluate env 100 [0x00, 0x00, 0x00, 0xaf] (toKeys 2 [[0x77, 1], [0x77, 2], [0x77, 3]]) = .done ⟨.ok, true⟩ := by
  decide +kernel

end Verif.Script
