import Verif.Pay.IdProps
import Verif.Script.EncodingProps

/-
C175: who can change the id of a transaction that spends payments of any kind.
-/

namespace Verif.Pay

open Verif Verif.SPV Verif.Chain Verif.Script Verif.Sig Verif.Keys

variable {P : Type} [AddCommGroup P]

/-! ### Specification -/

/-- Input `k` is accepted as spending an output of this value and script, by the rules since Genesis. -/
def Unlocks (ec : Curve) (H : Bytes → BitVec 256) (hashes : HashOp → Bytes → Bytes) (t : Tx) (k : Nat) (value : BitVec 64)
    (script output : Bytes) : Prop :=
  2 * script.length + output.length + 1300 < 2 ^ 31 ∧ ∃ n r, 2 * script.length + output.length + 1300 < n ∧
    evaluate (standardEnv ec H hashes false t k value) n script output = .done r ∧ r.verified = true

/-- Every input of the transaction is accepted as spending the given outputs. -/
def Accepts (ec : Curve) (H : Bytes → BitVec 256) (hashes : HashOp → Bytes → Bytes) (t : Tx) (prev : List Verif.Output) : Prop :=
  t.inputs.length = prev.length ∧
  ∀ k i o, t.inputs[k]? = some i → prev[k]? = some o → Unlocks ec H hashes t k o.value i.script o.script

/-- The script pushes these values and does nothing else. -/
def PushesOnly (script : Bytes) (values : List Bytes) : Prop :=
  ∃ u, decompileS script = .ok u ∧ isPushProgram u = true ∧ u.map Instr.pushData = values

/-- To whom an output pays: an address, a key, or `w` of several keys. -/
inductive Payee
  | address (h : Bytes)
  | key (pub : Bytes)
  | keys (w : Nat) (keys : List Bytes)

def Payee.script : Payee → Bytes
  | .address h => toAddress h
  | .key pub => toKey pub
  | .keys w ks => toKeys w ks

def Payee.code : Payee → Program
  | .address h => payToAddress h
  | .key pub => payToPubkey pub
  | .keys w ks => payToKeys w ks

def Payee.Ok : Payee → Prop
  | .address h => h.length = 20
  | .key pub => 2 ≤ pub.length ∧ pub.length ≤ 75
  | .keys w ks => KeysOk w ks

/-- A signature by the key it is of, its numbers and its directive. -/
structure Mark where
  pub : Bytes
  r : Nat
  s : Nat
  dir : UInt8

/-- The signature, written as `raw` and the directive, is one of the key for this input. -/
def Mark.Signs (ec : Curve) (H : Bytes → BitVec 256) (t : Tx) (k : Nat) (value : BitVec 64) (code : Program) (m : Mark) (raw : Bytes) : Prop :=
  Numbers raw m.r m.s ∧ m.r < curveOrder ∧ m.s < curveOrder ∧ normalized raw = true ∧
    ∃ digest, sigHash H ⟨ITx.ofTx t, BitVec.ofNat 32 k, value, code⟩ m.dir = .ok digest ∧ ec.verify m.pub digest raw = true

/-- What an unlocking script pushes: for an address a signature and the key with this hash, for a key its signature, for several keys nothing
and a signature for each of the last `w` of them. -/
def HoldsAll (ec : Curve) (H : Bytes → BitVec 256) (hashes : HashOp → Bytes → Bytes) (t : Tx) (k : Nat) (value : BitVec 64) (p : Payee)
    (script : Bytes) (marks : List Mark) : Prop :=
  ∃ raws, List.Forall₂ (Mark.Signs ec H t k value p.code) marks raws ∧
    match p with
    | .address h => ∃ m raw, marks = [m] ∧ raws = [raw] ∧ hashes .hash160 m.pub = h ∧ PushesOnly script [raw ++ [m.dir], m.pub]
    | .key pub => ∃ m raw, marks = [m] ∧ raws = [raw] ∧ m.pub = pub ∧ PushesOnly script [raw ++ [m.dir]]
    | .keys w ks => marks.map (·.pub) = ks.drop (ks.length - w) ∧
        PushesOnly script ([] :: List.zipWith (fun m raw => raw ++ [m.dir]) marks raws)

/-- The same signature, or the same but for the sign of S. -/
def Mark.Same (m m' : Mark) : Prop := m'.pub = m.pub ∧ m'.dir = m.dir ∧ m'.r = m.r ∧ (m'.s = m.s ∨ m.s + m'.s = curveOrder)

/-! ### Lemmas -/

theorem genesis_pushes (ec : Curve) (H : Bytes → BitVec 256) (hashes : HashOp → Bytes → Bytes) (t : Tx) (k : Nat) (value : BitVec 64) (ux : Bytes) :
    OnlyPushes (standardEnv ec H hashes false t k value).cfg ux :=
  .inl (show (Config.ofFlags genesisFlags false).cfg.sigPushOnly = true by decide +kernel)

theorem genesis_minimal (ec : Curve) (H : Bytes → BitVec 256) (hashes : HashOp → Bytes → Bytes) (t : Tx) (k : Nat) (value : BitVec 64) :
    (standardEnv ec H hashes false t k value).cfg.minimal = true :=
  show (Config.ofFlags genesisFlags false).cfg.minimal = true by decide +kernel

theorem genesis_clean (ec : Curve) (H : Bytes → BitVec 256) (hashes : HashOp → Bytes → Bytes) (t : Tx) (k : Nat) (value : BitVec 64) :
    (standardEnv ec H hashes false t k value).cfg.cleanStack = true :=
  show (Config.ofFlags genesisFlags false).cfg.cleanStack = true by decide +kernel

theorem genesis_noScript (ec : Curve) (H : Bytes → BitVec 256) (hashes : HashOp → Bytes → Bytes) (t : Tx) (k : Nat) (value : BitVec 64) (lx : Bytes) :
    NotToScript (standardEnv ec H hashes false t k value).cfg lx :=
  fun _ _ => .inl (show (Config.ofFlags genesisFlags false).cfg.p2sh = false by decide +kernel)

theorem genesis_flags (ec : Curve) (H : Bytes → BitVec 256) (hashes : HashOp → Bytes → Bytes) (t : Tx) (k : Nat) (value : BitVec 64) :
    (standardEnv ec H hashes false t k value).cfg.flags = rulesOf false := (rules_cfg false).1

/-- What an accepted unlocking script is. -/
theorem unlocks_allowed {ec : Curve} {H : Bytes → BitVec 256} {hashes : HashOp → Bytes → Bytes} {t : Tx} {k : Nat} {value : BitVec 64}
    {ux lx : Bytes} (h : Unlocks ec H hashes t k value ux lx) :
    ∃ u, decompileS ux = .ok u ∧ isPushProgram u = true ∧ ∀ i ∈ u, Allowed (Config.ofFlags genesisFlags false).cfg i := by
  obtain ⟨hl, n, r, hn, hv, hr⟩ := h
  obtain ⟨p, hp, _⟩ := (C24_verified_iff_partial _ ux lx (by omega) n (by omega)).mp ⟨r, hv, hr⟩
  cases hd : decompileS lx with
  | error e =>
    unfold prepare at hp
    rw [hd] at hp
    cases hu : decompileS ux with
    | error e' => rw [hu] at hp; cases hp
    | ok u => rw [hu] at hp; cases hp
  | ok l =>
    obtain ⟨u, hu, pu, rfl, hpv⟩ := prepare_split_inv hd (genesis_noScript ec H hashes t k value lx l hd) (genesis_pushes ec H hashes t k value ux) hp
    rw [List.append_assoc, List.singleton_append] at hpv
    exact ⟨u, hu, pu, (valid_front (isPushProgram_mem pu) (validProgram_sep hpv)).1⟩

/-- What is signed does not depend on the unlocking scripts. -/
theorem env_same {ec : Curve} {H : Bytes → BitVec 256} {t t' : Tx} (h : ITx.ofTx t' = ITx.ofTx t) {k : Nat}
    {value : BitVec 64} {code : Program} {m : Mark} {raw : Bytes} (hs : m.Signs ec H t' k value code raw) : m.Signs ec H t k value code raw := by
  unfold Mark.Signs at hs ⊢
  rw [h] at hs
  exact hs

/-- A signature that passes the check, by its numbers. -/
theorem signs_of {ec : Curve} (hec : Careful ec) {H : Bytes → BitVec 256} {t : Tx} {k : Nat} {value : BitVec 64} {code : Program}
    {sig pub : Bytes} (h : SignedBy ec H (rulesOf false) t k value code sig pub) :
    ∃ (m : Mark) (raw : Bytes), m.pub = pub ∧ sig = raw ++ [m.dir] ∧ m.Signs ec H t k value code raw ∧
      ∀ q, cleanupScriptCode q sig = q := by
  obtain ⟨raw, dir, digest, hs, hd, hh, hv⟩ := h
  obtain ⟨r, s, h7, h8, h9⟩ := hec.strict pub digest raw hv
  have hlow := hd.low (by unfold On rulesOf; decide +kernel)
  refine ⟨⟨pub, r, s, dir⟩, raw, rfl, ?_, ⟨h7, h8, h9, hlow, digest, hh, hv⟩, cleanup_forkid hs (hd.required (rules_on false).1)⟩
  rcases hs with ⟨_, rfl, _⟩ | hs
  · obtain ⟨_, _, e, _⟩ := h7
    simp [derBytes] at e
  · exact hs

theorem signs_all {ec : Curve} (hec : Careful ec) {H : Bytes → BitVec 256} {t : Tx} {k : Nat} {value : BitVec 64} {code : Program}
    {sigs ks : List Bytes} (h : List.Forall₂ (SignedBy ec H (rulesOf false) t k value code) sigs ks) :
    ∃ (marks : List Mark) (raws : List Bytes), List.Forall₂ (Mark.Signs ec H t k value code) marks raws ∧ marks.map (·.pub) = ks ∧
      sigs = List.zipWith (fun m raw => raw ++ [m.dir]) marks raws := by
  induction h with
  | nil => exact ⟨[], [], .nil, rfl, rfl⟩
  | cons h1 _ ih =>
    obtain ⟨m, raw, e1, e2, e3, _⟩ := signs_of hec h1
    obtain ⟨ms, raws, i1, i2, i3⟩ := ih
    exact ⟨m :: ms, raw :: raws, .cons e3 i1, by rw [List.map_cons, e1, i2], by rw [List.zipWith_cons_cons, ← e2, ← i3]⟩

/-- What an unlocking script of a payment holds. -/
theorem unlocks_holds {ec : Curve} (hec : Careful ec) {H : Bytes → BitVec 256} {hashes : HashOp → Bytes → Bytes} {t : Tx} {k : Nat}
    {value : BitVec 64} {p : Payee} (hp : p.Ok) {ux : Bytes} (h : Unlocks ec H hashes t k value ux p.script) :
    ∃ marks, HoldsAll ec H hashes t k value p ux marks := by
  obtain ⟨hl, n, r, hn, hv, hr⟩ := h
  have hf := genesis_flags ec H hashes t k value
  have hc := genesis_clean ec H hashes t k value
  cases p with
  | address h =>
    have hlen : (toAddress h).length = 25 := by simp [toAddress, show h.length = 20 from hp]
    simp only [Payee.script] at hl hn hv
    obtain ⟨us, sig, pub, h1, h2, h3, h4, h5⟩ := C167_address_partial (standardEnv ec H hashes false t k value) _ rfl ux h hp
      (genesis_pushes ec H hashes t k value ux) (by omega) n (by omega) ⟨r, hv, hr⟩
    obtain rfl := h5 hc
    rw [hf] at h4
    have h6 := check_good_iff.mp h4
    obtain ⟨m, raw, e1, e2, e3, e4⟩ := signs_of hec h6
    rw [e4] at e3
    refine ⟨[m], [raw], .cons e3 .nil, m, raw, rfl, rfl, by rw [e1]; exact h3, _, h1, h2, ?_⟩
    simp [e1, ← e2]
  | key pub =>
    have hlen : (toKey pub).length = pub.length + 2 := by simp [toKey]
    simp only [Payee.script] at hl hn hv
    obtain ⟨us, sig, h1, h2, h4, h5⟩ := C167_pubkey_partial (standardEnv ec H hashes false t k value) _ rfl ux pub hp
      (genesis_pushes ec H hashes t k value ux) (by omega) n (by omega) ⟨r, hv, hr⟩
    obtain rfl := h5 hc
    rw [hf] at h4
    have h6 := check_good_iff.mp h4
    obtain ⟨m, raw, e1, e2, e3, e4⟩ := signs_of hec h6
    rw [e4] at e3
    refine ⟨[m], [raw], .cons e3 .nil, m, raw, rfl, rfl, e1, _, h1, h2, ?_⟩
    simp [← e2]
  | keys w ks =>
    simp only [Payee.script] at hl hn hv
    obtain ⟨u, sigs, h1, h2, h3, h4⟩ := C168_signed_partial ec H hashes false t k value ux w ks hp (fun h => (by cases h)) (by omega) n (by omega)
      ⟨r, hv, hr⟩
    obtain ⟨ms, raws, i1, i2, i3⟩ := signs_all hec h4
    exact ⟨ms, raws, i1, i2, u, h1, h2, by rw [h3, i3]⟩

theorem same_raw {ec : Curve} {H : Bytes → BitVec 256} {t : Tx} {k : Nat} {value : BitVec 64} {code : Program} {m m' : Mark} {raw raw' : Bytes}
    (h : m.Signs ec H t k value code raw) (h' : m'.Signs ec H t k value code raw') (hs : m.Same m') : raw' = raw ∧ m'.dir = m.dir ∧ m'.pub = m.pub := by
  obtain ⟨s1, s2, s3, s4⟩ := hs
  obtain ⟨a1, a2, a3, a4, _⟩ := h
  obtain ⟨b1, b2, b3, b4, _⟩ := h'
  rw [s3] at b1
  exact ⟨C174_one_form a1 b1 a2 a3 b3 a4 b4 s4, s2, s1⟩

theorem same_sigs {ec : Curve} {H : Bytes → BitVec 256} {t : Tx} {k : Nat} {value : BitVec 64} {code : Program} {ms ms' : List Mark}
    {raws raws' : List Bytes} (h : List.Forall₂ (Mark.Signs ec H t k value code) ms raws)
    (h' : List.Forall₂ (Mark.Signs ec H t k value code) ms' raws') (hs : List.Forall₂ Mark.Same ms ms') :
    List.zipWith (fun (m : Mark) raw => raw ++ [m.dir]) ms' raws' = List.zipWith (fun (m : Mark) raw => raw ++ [m.dir]) ms raws := by
  induction hs generalizing raws raws' with
  | nil => cases h; cases h'; rfl
  | cons h1 _ ih =>
    cases h with
    | cons a b =>
      cases h' with
      | cons a' b' =>
        obtain ⟨e1, e2, _⟩ := same_raw a a' h1
        rw [List.zipWith_cons_cons, List.zipWith_cons_cons, ih b b', e1, e2]

/-- Scripts that hold the same signatures push the same values. -/
theorem holds_values {ec : Curve} {H : Bytes → BitVec 256} {hashes : HashOp → Bytes → Bytes} {t : Tx} {k : Nat} {value : BitVec 64} {p : Payee}
    {ux ux' : Bytes} {ms ms' : List Mark} (h : HoldsAll ec H hashes t k value p ux ms) (h' : HoldsAll ec H hashes t k value p ux' ms')
    (hs : List.Forall₂ Mark.Same ms ms') : ∃ values, PushesOnly ux values ∧ PushesOnly ux' values := by
  obtain ⟨raws, s, h⟩ := h
  obtain ⟨raws', s', h'⟩ := h'
  have hz := same_sigs s s' hs
  cases p with
  | address hash =>
    obtain ⟨m, raw, rfl, rfl, _, h⟩ := h
    obtain ⟨m', raw', rfl, rfl, _, h'⟩ := h'
    cases hs with
    | cons hs _ =>
      simp only [List.zipWith_cons_cons, List.zipWith_nil_left, List.cons.injEq, and_true] at hz
      rw [hz, hs.1] at h'
      exact ⟨_, h, h'⟩
  | key pub =>
    obtain ⟨m, raw, rfl, rfl, _, h⟩ := h
    obtain ⟨m', raw', rfl, rfl, _, h'⟩ := h'
    simp only [List.zipWith_cons_cons, List.zipWith_nil_left, List.cons.injEq, and_true] at hz
    rw [hz] at h'
    exact ⟨_, h, h'⟩
  | keys w ks =>
    rw [hz] at h'
    exact ⟨_, h.2, h'.2⟩

theorem pushesOnly_unique {ux : Bytes} {v v' : List Bytes} (h : PushesOnly ux v) (h' : PushesOnly ux v') : v' = v := by
  obtain ⟨u, h1, _, h2⟩ := h
  obtain ⟨u', h1', _, h2'⟩ := h'
  rw [h1] at h1'
  injection h1' with e
  rw [← h2', ← h2, e]

theorem holds_length {ec : Curve} {H : Bytes → BitVec 256} {hashes : HashOp → Bytes → Bytes} {t : Tx} {k : Nat} {value : BitVec 64} {p : Payee}
    {ux : Bytes} {ms : List Mark} (h : HoldsAll ec H hashes t k value p ux ms) : ∀ {ms' : List Mark} {ux' : Bytes},
      HoldsAll ec H hashes t k value p ux' ms' → ms'.length = ms.length := by
  intro ms' ux' h'
  obtain ⟨raws, _, h⟩ := h
  obtain ⟨raws', _, h'⟩ := h'
  cases p with
  | address hash =>
    obtain ⟨m, raw, rfl, _⟩ := h
    obtain ⟨m', raw', rfl, _⟩ := h'
    rfl
  | key pub =>
    obtain ⟨m, raw, rfl, _⟩ := h
    obtain ⟨m', raw', rfl, _⟩ := h'
    rfl
  | keys w ks =>
    have := congrArg List.length (h'.1.trans h.1.symm)
    simpa using this

/-- Two accepted transactions of which the ids differ differ in an unlocking script, and so in a value that it pushes. -/
theorem changed_script {H : Bytes → BitVec 256} {t t' : Tx} (hb : ButScripts t t') (hid : txId H t' ≠ txId H t) :
    ∃ (k : Nat) (i i' : Verif.Input), t.inputs[k]? = some i ∧ t'.inputs[k]? = some i' ∧ i'.script ≠ i.script := by
  obtain ⟨b1, b2, b3, b4, b5⟩ := hb
  have hne : t'.inputs ≠ t.inputs := by
    intro e
    apply hid
    have : t' = t := by
      cases t; cases t'
      simp only at b1 b2 b3 e
      subst b1 b2 b3 e
      rfl
    rw [this]
  obtain ⟨k, hk⟩ : ∃ k, t'.inputs[k]? ≠ t.inputs[k]? := by
    apply Classical.byContradiction
    intro h
    exact hne (List.ext_getElem? fun k => Classical.byContradiction fun g => h ⟨k, g⟩)
  have g : k < t.inputs.length := by
    apply Classical.byContradiction
    intro g
    exact hk (by rw [List.getElem?_eq_none (by omega), List.getElem?_eq_none (by omega)])
  have g' : k < t'.inputs.length := by omega
  have e1 := List.getElem?_eq_getElem g
  have e2 := List.getElem?_eq_getElem g'
  generalize t.inputs[k] = i at e1
  generalize t'.inputs[k] = i' at e2
  refine ⟨k, i, i', e1, e2, fun e => ?_⟩
  obtain ⟨q1, q2⟩ := b5 k i i' e1 e2
  apply hk
  rw [e1, e2]
  cases i; cases i'
  simp only at q1 q2 e
  rw [q1, q2, e]

/-! ### Theorems -/

/-- **C175**: two transactions that differ in nothing but their unlocking scripts are both accepted, whatever the outputs are that they spend, and their ids
differ.  Then there is an input where the two unlocking scripts push different values: no value can be written in another way. -/
theorem C175_values (ec : Curve) (H : Bytes → BitVec 256) (hashes : HashOp → Bytes → Bytes) (t t' : Tx) (prev : List Verif.Output)
    (hb : ButScripts t t') (ht : Accepts ec H hashes t prev) (ht' : Accepts ec H hashes t' prev) (hid : txId H t' ≠ txId H t) :
    ∃ (k : Nat) (i i' : Verif.Input) (values values' : List Bytes), t.inputs[k]? = some i ∧ t'.inputs[k]? = some i' ∧
      PushesOnly i.script values ∧ PushesOnly i'.script values' ∧ values' ≠ values := by
  obtain ⟨k, i, i', e1, e2, hne⟩ := changed_script hb hid
  have g : k < t.inputs.length := by
    apply Classical.byContradiction
    intro g
    rw [List.getElem?_eq_none (by omega)] at e1
    cases e1
  have e3 := List.getElem?_eq_getElem (show k < prev.length by rw [← ht.1]; exact g)
  obtain ⟨u, h1, h2, h3⟩ := unlocks_allowed (ht.2 k i _ e1 e3)
  obtain ⟨u', h1', h2', h3'⟩ := unlocks_allowed (ht'.2 k i' _ e2 e3)
  refine ⟨k, i, i', _, _, e1, e2, ⟨u, h1, h2, rfl⟩, ⟨u', h1', h2', rfl⟩, fun e => hne ?_⟩
  exact C173_one_way (Config.ofFlags genesisFlags false).cfg (by decide +kernel) i.script i'.script ⟨u, u', h1, h1', h3, h3', e.symm⟩

/-- **C175**: if the outputs pay to addresses, keys and several keys, in any mixture, then there is an input and in it a signature that is another
one, of another key, with another directive, or with numbers that differ in more than the sign of S. -/
theorem C175_changed (ec : Curve) (hec : Careful ec) (H : Bytes → BitVec 256) (hashes : HashOp → Bytes → Bytes) (t t' : Tx)
    (prev : List (BitVec 64 × Payee)) (hp : ∀ p ∈ prev, p.2.Ok) (hb : ButScripts t t')
    (ht : Accepts ec H hashes t (prev.map fun p => ⟨p.1, p.2.script⟩)) (ht' : Accepts ec H hashes t' (prev.map fun p => ⟨p.1, p.2.script⟩))
    (hid : txId H t' ≠ txId H t) :
    ∃ (k : Nat) (i i' : Verif.Input) (p : BitVec 64 × Payee) (ms ms' : List Mark) (j : Nat) (m m' : Mark),
      t.inputs[k]? = some i ∧ t'.inputs[k]? = some i' ∧ prev[k]? = some p ∧
      HoldsAll ec H hashes t k p.1 p.2 i.script ms ∧ HoldsAll ec H hashes t k p.1 p.2 i'.script ms' ∧
      ms[j]? = some m ∧ ms'[j]? = some m' ∧ ¬ m.Same m' := by
  have hi : ITx.ofTx t' = ITx.ofTx t := butScripts_iff.mp hb
  obtain ⟨k, i, i', v, v', e1, e2, p1, p2, hne⟩ := C175_values ec H hashes t t' _ hb ht ht' hid
  have g : k < t.inputs.length := by
    apply Classical.byContradiction
    intro g
    rw [List.getElem?_eq_none (by omega)] at e1
    cases e1
  have gp : k < prev.length := by
    have := ht.1
    rw [List.length_map] at this
    omega
  have e3 := List.getElem?_eq_getElem gp
  have hp' := hp _ (List.getElem_mem gp)
  generalize prev[k] = p at e3 hp'
  have e4 : (prev.map fun p => (⟨p.1, p.2.script⟩ : Verif.Output))[k]? = some ⟨p.1, p.2.script⟩ := by rw [List.getElem?_map, e3]; rfl
  obtain ⟨ms, h1⟩ := unlocks_holds hec hp' (ht.2 k i _ e1 e4)
  obtain ⟨ms', h2⟩ := unlocks_holds hec hp' (ht'.2 k i' _ e2 e4)
  have h2 : HoldsAll ec H hashes t k p.1 p.2 i'.script ms' := by
    obtain ⟨raws, a, b⟩ := h2
    exact ⟨raws, a.imp fun _ _ h => env_same hi h, b⟩
  have hlen := holds_length h1 h2
  apply Classical.byContradiction
  intro hno
  have hall : List.Forall₂ Mark.Same ms ms' := by
    rw [List.forall₂_iff_get]
    refine ⟨hlen.symm, fun j q1 q2 => Classical.byContradiction fun hn => hno ?_⟩
    exact ⟨k, i, i', p, ms, ms', j, _, _, e1, e2, e3, h1, h2, List.getElem?_eq_getElem q1, List.getElem?_eq_getElem q2, hn⟩
  obtain ⟨w, q1, q2⟩ := holds_values h1 h2 hall
  exact hne ((pushesOnly_unique q2 p2).trans (pushesOnly_unique q1 p1).symm)

/-- So whoever has no new signature cannot change the id. -/
theorem C175_same (ec : Curve) (hec : Careful ec) (H : Bytes → BitVec 256) (hashes : HashOp → Bytes → Bytes) (t t' : Tx)
    (prev : List (BitVec 64 × Payee)) (hp : ∀ p ∈ prev, p.2.Ok) (hb : ButScripts t t')
    (ht : Accepts ec H hashes t (prev.map fun p => ⟨p.1, p.2.script⟩)) (ht' : Accepts ec H hashes t' (prev.map fun p => ⟨p.1, p.2.script⟩))
    (hsame : ∀ (k : Nat) (i i' : Verif.Input) (p : BitVec 64 × Payee) (ms ms' : List Mark) (j : Nat) (m m' : Mark),
      t.inputs[k]? = some i → t'.inputs[k]? = some i' → prev[k]? = some p → HoldsAll ec H hashes t k p.1 p.2 i.script ms →
      HoldsAll ec H hashes t k p.1 p.2 i'.script ms' → ms[j]? = some m → ms'[j]? = some m' → m.Same m') :
    txId H t' = txId H t := by
  apply Classical.byContradiction
  intro hid
  obtain ⟨k, i, i', p, ms, ms', j, m, m', e1, e2, e3, h1, h2, q1, q2, hn⟩ := C175_changed ec hec H hashes t t' prev hp hb ht ht' hid
  exact hn (hsame k i i' p ms ms' j m m' e1 e2 e3 h1 h2 q1 q2)

/-- One of several signers is enough: whoever owns one of the keys can sign again and put the new signature in the place of their old one, without
the others. -/
theorem C175_one_signer (ec : Curve) (H : Bytes → BitVec 256) (hashes : HashOp → Bytes → Bytes) (t : Tx) (k : Nat) (value : BitVec 64)
    (sigs keys : List Bytes) (hk : KeysOk sigs.length keys) (hsig : ∀ s ∈ sigs, 2 ≤ s.length ∧ s.length ≤ 75)
    (hgood : List.Forall₂ (SignedBy ec H (rulesOf false) t k value (payToKeys sigs.length keys)) sigs (keys.drop (keys.length - sigs.length)))
    (j : Nat) (sig pub : Bytes) (hj : (keys.drop (keys.length - sigs.length))[j]? = some pub) (hs : 2 ≤ sig.length ∧ sig.length ≤ 75)
    (hnew : SignedBy ec H (rulesOf false) t k value (payToKeys sigs.length keys) sig pub) (n : Nat) (hn : 60 ≤ n) :
    evaluate (standardEnv ec H hashes false t k value) n (signedBy sigs) (toKeys sigs.length keys) = .done ⟨.ok, true⟩ ∧
    evaluate (standardEnv ec H hashes false t k value) n (signedBy (sigs.set j sig)) (toKeys sigs.length keys) = .done ⟨.ok, true⟩ := by
  refine ⟨C168_owners ec H hashes false t k value sigs keys hk hsig hgood n hn, ?_⟩
  have hl : (sigs.set j sig).length = sigs.length := List.length_set
  have hall : List.Forall₂ (SignedBy ec H (rulesOf false) t k value (payToKeys sigs.length keys)) (sigs.set j sig)
      (keys.drop (keys.length - sigs.length)) := by
    rw [List.forall₂_iff_get] at hgood ⊢
    refine ⟨by rw [hl]; exact hgood.1, fun a q1 q2 => ?_⟩
    simp only [List.get_eq_getElem, List.getElem_set]
    split
    · next e =>
      subst e
      rw [List.getElem?_eq_getElem q2] at hj
      injection hj with hj
      rw [hj]
      exact hnew
    · exact hgood.2 a (by rw [hl] at q1; exact q1) q2
  have := C168_owners ec H hashes false t k value (sigs.set j sig) keys (by rw [hl]; exact hk) (fun s h => by
    rcases List.mem_or_eq_of_mem_set h with h | rfl
    · exact hsig s h
    · exact hs) (by rw [hl]; exact hall) n hn
  rwa [hl] at this

/-! ### Case -/

/-- Two inputs: one spends a payment to a key, the other one to one of two keys. -/
def anyTx (raw : Bytes) : Tx :=
  ⟨1, [⟨⟨5, 0⟩, signedBy [derBytes [1] [1] ++ [0x41]], 7⟩, ⟨⟨6, 1⟩, UInt8.ofNat (raw.length + 1) :: (raw ++ [0x41]), 7⟩], [⟨9, [0x51]⟩], 0⟩

def anyPaid : List (BitVec 64 × Payee) := [(10, .keys 1 [List.replicate 33 3, List.replicate 33 2]), (11, .key (List.replicate 33 4))]

theorem anyTx_accepted (raw : Bytes) (h : raw = derBytes [1] [1] ∨ raw = derBytes [2] [1]) :
    Accepts idCurve idHash idHashes (anyTx raw) (anyPaid.map fun p => ⟨p.1, p.2.script⟩) := by
  refine ⟨rfl, fun k i p h1 h2 => ?_⟩
  match k with
  | 0 =>
    simp only [anyTx, anyPaid, List.map_cons, List.getElem?_cons_zero, Option.some.injEq] at h1 h2
    subst h1 h2
    rcases h with rfl | rfl
    · exact ⟨by decide, 1500, ⟨.ok, true⟩, by decide, by decide +kernel, rfl⟩
    · exact ⟨by decide, 1500, ⟨.ok, true⟩, by decide, by decide +kernel, rfl⟩
  | 1 =>
    simp only [anyTx, anyPaid, List.map_cons, List.getElem?_cons_zero, List.getElem?_cons_succ, Option.some.injEq] at h1 h2
    subst h1 h2
    rcases h with rfl | rfl
    · exact ⟨by decide, 1500, ⟨.ok, true⟩, by decide, by decide +kernel, rfl⟩
    · exact ⟨by decide, 1500, ⟨.ok, true⟩, by decide, by decide +kernel, rfl⟩
  | k + 2 => simp [anyTx] at h1

-- the hypotheses are met, with a second signature of the key
example : Careful idCurve ∧ ButScripts (anyTx (derBytes [1] [1])) (anyTx (derBytes [2] [1])) ∧
    Accepts idCurve idHash idHashes (anyTx (derBytes [1] [1])) (anyPaid.map fun p => ⟨p.1, p.2.script⟩) ∧
    Accepts idCurve idHash idHashes (anyTx (derBytes [2] [1])) (anyPaid.map fun p => ⟨p.1, p.2.script⟩) ∧
    (∀ p ∈ anyPaid, p.2.Ok) ∧ txId idHash (anyTx (derBytes [2] [1])) ≠ txId idHash (anyTx (derBytes [1] [1])) := by
  refine ⟨idCurve_careful, butScripts_iff.mpr rfl, anyTx_accepted _ (.inl rfl), anyTx_accepted _ (.inr rfl), fun p hp => ?_, by decide +kernel⟩
  simp only [anyPaid, List.mem_cons, List.not_mem_nil, or_false] at hp
  rcases hp with rfl | rfl
  · exact ⟨by decide, by decide, by decide, by simp⟩
  · exact ⟨by decide, by decide⟩

-- both signatures are good in the place of one of two keys
example : SignedBy idCurve idHash (rulesOf false) (anyTx []) 0 10 (payToKeys 1 [List.replicate 33 3, List.replicate 33 2])
      (derBytes [1] [1] ++ [0x41]) (List.replicate 33 2) ∧
    SignedBy idCurve idHash (rulesOf false) (anyTx []) 0 10 (payToKeys 1 [List.replicate 33 3, List.replicate 33 2])
      (derBytes [2] [1] ++ [0x41]) (List.replicate 33 2) :=
  ⟨check_good_iff.mp (by decide +kernel), check_good_iff.mp (by decide +kernel)⟩

end Verif.Pay
