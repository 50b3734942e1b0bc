import Verif.Pay.Received
import Verif.Pay.BeefProps

/-
C157: a payment that a wallet makes is accepted by whoever receives it.
-/

namespace Verif.Pay

open Verif Verif.SPV Verif.Chain Verif.Script Verif.Sig Verif.Keys Verif.Text

open Spec SPV.Spec
open _root_.Verif.Merkle.Spec (width node)
open _root_.Verif.Bumps.Spec (IsBranch)

variable {db : Digest → Found}

/-! ### Specification -/

/-- The database files transactions under their ids. -/
def Filed (H : Bytes → Digest) (db : Digest → Found) : Prop := ∀ d t, (db d).transaction = some t → txId H t = d

/-- No transaction of the database that is not confirmed spends itself through others: they can be ranked. -/
def Ranked (db : Digest → Found) (rank : Digest → Nat) : Prop :=
  ∀ d t, (db d).transaction = some t → (db d).confirmed = false → ∀ i ∈ t.inputs, rank i.reference.digest < rank d

/-- What a wallet knows of an output it wants to spend is what the database has. -/
def Known (db : Digest → Found) (i : DInput) : Prop :=
  ∃ p, (db i.reference.digest).transaction = some p ∧ p.outputs[i.reference.index.toNat]? = some i.prevout

/-- A directive with the fork id: for all outputs, none or one, and for all inputs or only this one. -/
def Forked (dir : UInt8) : Prop := ∃ base, base < 4 ∧ ∃ acp : Bool, dir = base + 0x40 + (if acp then 0x80 else 0)

/-- A design of a transaction that can be signed: every input is a payment to the key of its one signature operation and is
an output of a transaction in the database, and no more is sent than is spent. -/
structure Payable {P : Type} [AddCommGroup P] (E : Ecdsa P) (hash160 : Bytes → Bytes) (db : Digest → Found) (t : Redeemable) :
    Prop where
  ready : ∀ r ∈ t.inputs, ∃ s dir pub, Ready E hash160 r s dir pub
  forked : ∀ r ∈ t.inputs, ∀ g ∈ r.sigs, Forked g.directive
  known : ∀ r ∈ t.inputs, Known db r.input
  funded : ∃ sent spent, total (t.inputs.map fun r => r.input.prevout.value.toInt) = some spent ∧
    total (t.outputs.map fun o => o.value.toInt) = some sent ∧ sent ≤ spent

/-! ### What a proof holds -/

/-- **C157**: a proof made for new transactions out of a database in which transactions are filed under their ids is one
that can be written: everything in it is filed under its id, is the same wherever it occurs, comes with what it spends, and is
spent by the payment or something else in it. -/
theorem C157_proof {H : Bytes → Digest} {depth : Nat} {payment p : List Tx} {m : NodeMap} (hf : Filed H db)
    (hnew : ∀ t ∈ payment, (db (txId H t)).transaction = none) (hnd : (payment.map (txId H)).Nodup)
    (h : generateProof H db depth payment = .ok (some (p, m))) : Coherent H m ∧ Pays H p m ∧ Used p m := by
  obtain ⟨rfl, hfrom, hhas⟩ := C101_generated H db depth payment p m h
  have hw := (genPayment_walk _ _ _ _ _ h).2
  have hgen : ∀ e ∈ m.walk, ∃ n, genNode db n e.1 = .ok (some e.2) := by
    intro e he
    rcases hw e he with h1 | ⟨t, _, i, _, x, h1, h2, _⟩
    · simp [NodeMap.walk] at h1
    · exact (genNode_walk _ _ _ h1 e h2).1
  have hfr : ∀ e ∈ m.walk, e.2.From db e.1 := fun e he => by
    obtain ⟨n, hn⟩ := hgen e he
    exact genNode_from _ _ _ hn
  have htx : ∀ e ∈ m.walk, (db e.1).transaction = some e.2.tx := by
    intro e he
    have := hfr e he
    cases hx : e.2 with
    | confirmed t c => rw [hx] at this; exact this.1
    | derived t m' => rw [hx] at this; exact this.1
  refine ⟨⟨?_, fun e he => hf _ _ (htx e he), ?_, ?_⟩, ⟨?_, ?_, ?_⟩, ?_⟩
  · exact solid_of_from m hfrom
  · intro e he e' he' hk
    obtain ⟨n, hn⟩ := hgen e he
    obtain ⟨n', hn'⟩ := hgen e' he'
    have h1 := genNode_le (Nat.le_max_left n n') hn
    have h2 := genNode_le (Nat.le_max_right n n') hn'
    rw [hk] at h1
    rw [h1] at h2
    simp only [Except.ok.injEq, Option.some.injEq] at h2
    exact Prod.ext hk h2
  · intro e he t m' hd i hi
    have := hfr e he
    rw [hd] at this
    exact this.2.2.2 i hi
  · rw [List.map_reverse, List.Nodup, List.pairwise_reverse]
    exact hnd.imp fun h => h.symm
  · intro t ht e he hk
    have h1 := htx e he
    rw [hk, hnew t (List.mem_reverse.1 ht)] at h1
    cases h1
  · intro t ht i hi
    exact (hhas t (List.mem_reverse.1 ht)).2 i hi
  · intro k t m' he
    rcases hw _ he with h1 | ⟨u, hu, i, hi, x, h1, h2, h3⟩
    · simp [NodeMap.walk] at h1
    · rcases (genNode_walk _ _ _ h1 _ h2).2 with h4 | ⟨k', u', m'', h4, h5⟩
      · simp only [Prod.mk.injEq] at h4
        exact ⟨u, .inl (List.mem_reverse.2 hu), i, hi, h4.1.symm⟩
      · exact ⟨u', .inr ⟨k', m'', h3 h4⟩, h5⟩

/-! ### That it is accepted -/

theorem Forked.permitted {dir : UInt8} (h : Forked dir) (pre : Bool) (pub : Bytes) :
    Permitted (if pre then preGenesisFlags else genesisFlags) dir pub := by
  obtain ⟨base, hb, acp, rfl⟩ := h
  have h40 : (base + 0x40 + (if acp then 0x80 else 0)) &&& 0x40 ≠ 0 := by
    have : ∀ b : UInt8, b < 4 → ∀ acp : Bool, (b + 0x40 + (if acp then 0x80 else 0)) &&& 0x40 ≠ 0 :=
      fun b => forall_byte (fun b => b < 4 → ∀ acp : Bool, (b + 0x40 + (if acp then 0x80 else 0)) &&& 0x40 ≠ 0) (by decide +kernel) b
    exact this base hb acp
  refine ⟨fun _ => ?_, fun _ => h40, ⟨base, hb, true, acp, by simp⟩, fun hc => ?_⟩
  · cases pre <;> (unfold On; decide)
  · exfalso
    revert hc
    cases pre <;> (unfold On; decide)

theorem standardEnv_ops (ec : Curve) (H : Bytes → Digest) (hashes : HashOp → Bytes → Bytes) (pre : Bool) (t : Tx) (k : Nat)
    (value : BitVec 64) : 5 ≤ (standardEnv ec H hashes pre t k value).cfg.maxOps := by
  show 5 ≤ (Config.ofFlags (if pre then preGenesisFlags else genesisFlags) false).cfg.maxOps
  cases pre <;> decide

theorem standardEnv_room (ec : Curve) (H : Bytes → Digest) (hashes : HashOp → Bytes → Bytes) (pre : Bool) (t : Tx) (k : Nat)
    (value : BitVec 64) : Roomy (standardEnv ec H hashes pre t k value).cfg 321 := by
  show (Config.ofFlags (if pre then preGenesisFlags else genesisFlags) false).cfg.genesisStack = true →
    321 ≤ (Config.ofFlags (if pre then preGenesisFlags else genesisFlags) false).cfg.maxMem
  cases pre <;> decide

/-- A script that spends is accepted by the rules of either time. -/
theorem spends_accepted {R : Rules} {ec : Curve} {hashes : HashOp → Bytes → Bytes} (henv : R.env = standardEnv ec R.H hashes)
    (hr : 9 ≤ R.rounds) {t : Tx} {k : Nat} {value : BitVec 64} {dir : UInt8} {pub unlock lock : Bytes} (hf : Forked dir)
    (h : Spends ec R.H (hashes .hash160) t k value dir pub unlock lock) (pre : Bool) :
    R.script pre t k value unlock lock = .ok true := by
  have h40 : dir &&& 0x40 ≠ 0 := (hf.permitted pre pub).required (by unfold On; cases pre <;> decide)
  have hd := h (standardEnv ec R.H hashes pre t k value) (redemptionDoc ec R.H t k value) rfl rfl (by
      intro f sig pub code r hv
      show (match verifySignature ec R.H f sig pub ⟨ITx.ofTx t, BitVec.ofNat 32 k, value, code⟩ with
        | .ok r => r
        | .error _ => Result.ofError .unknownError) = r
      rw [hv])
    (fun h0 => absurd h0 h40) (by
      have : (standardEnv ec R.H hashes pre t k value).cfg.flags = if pre then preGenesisFlags else genesisFlags := by
        cases pre <;> rfl
      rw [this]
      exact hf.permitted pre pub)
    (standardEnv_ops ..) (standardEnv_room ec R.H hashes pre t k value) R.rounds hr
  unfold Rules.script
  rw [henv, hd]
  rfl

/-- The transactions that something acceptable spends are in the database. -/
theorem acceptable_spent {R : Rules} {t : Tx} (h : Acceptable R db t) : ∀ i ∈ t.inputs, (db i.reference.digest).transaction.isSome = true := by
  obtain ⟨outs, _, _, hl, h1, _⟩ := h
  intro i hi
  obtain ⟨k, hk⟩ := List.mem_iff_getElem?.1 hi
  have hlt : k < outs.length := by
    rw [hl]
    exact (List.getElem?_eq_some_iff.1 hk).1
  obtain ⟨⟨p, hp, _⟩, _⟩ := h1 k i outs[k] hk (List.getElem?_eq_getElem hlt)
  rw [hp]
  rfl

variable {P : Type} [AddCommGroup P]

/-- **C157**: a design whose inputs pay to the wallet's keys is redeemed, and the transaction made is acceptable. -/
theorem C157_acceptable (E : Ecdsa P) (hashes : HashOp → Bytes → Bytes) (hlen : ∀ b, (hashes .hash160 b).length = 20) (R : Rules)
    (henv : R.env = standardEnv E.curve R.H hashes) (hr : 9 ≤ R.rounds) (t : Redeemable) (ht : Payable E (hashes .hash160) db t) :
    ∃ x, t.redeem E (hashes .hash160) R.H = .ok x ∧ x.outputs = t.outputs ∧
      x.plain.inputs.map (·.reference) = t.inputs.map (·.input.reference) ∧ Acceptable R db x.plain := by
  obtain ⟨x, h1, h2, h3, h4, h5, h6⟩ := C97_spends_partial E (hashes .hash160) hlen R.H t ht.ready
  obtain ⟨sent, spent, f1, f2, f3⟩ := ht.funded
  have hin : ∀ k r, t.inputs[k]? = some r → ∃ script, x.plain.inputs[k]? = some ⟨r.input.reference, script, r.input.sequence⟩ ∧
      ∀ pre, R.script pre x.plain k r.input.prevout.value script r.input.prevout.script = .ok true := by
    intro k r hk
    obtain ⟨script, g1, s, dir, pub, g2, g3⟩ := h6 k r hk
    refine ⟨script, by simp [XTx.plain, g1], fun pre => ?_⟩
    refine spends_accepted henv hr ?_ g3 pre
    exact ht.forked r (List.mem_of_getElem? hk) ⟨s, dir⟩ (by rw [g2.one]; exact List.mem_singleton.2 rfl)
  have hl : x.plain.inputs.length = t.inputs.length := by simp [XTx.plain, h5]
  refine ⟨x, h1, h3, ?_, t.inputs.map (·.input.prevout), sent, spent, by simp [hl], ?_, by rw [List.map_map]; exact f1,
    by rw [show x.plain.outputs = t.outputs from h3]; exact f2, f3⟩
  · apply List.ext_getElem?
    intro k
    simp only [List.getElem?_map]
    cases hk : t.inputs[k]? with
    | none =>
      rw [List.getElem?_eq_none (by rw [hl]; exact List.getElem?_eq_none_iff.1 hk)]
      rfl
    | some r =>
      obtain ⟨script, g1, _⟩ := hin k r hk
      rw [g1]
      rfl
  · intro k i o hi ho
    simp only [List.getElem?_map, Option.map_eq_some_iff] at ho
    obtain ⟨r, hk, rfl⟩ := ho
    obtain ⟨script, g1, g2⟩ := hin k r hk
    rw [g1] at hi
    cases hi
    exact ⟨ht.known r (List.mem_of_getElem? hk), fun pre _ => g2 pre⟩

/-- Something acceptable that is not confirmed can be proved from the database, and the proof is accepted. -/
theorem acceptable_proved {R : Rules} (hdb : Truthful R db)
    (hall : ∀ d t, (db d).transaction = some t → (db d).confirmed = false → Acceptable R db t) {rank : Digest → Nat}
    (hrank : Ranked db rank) {t : Tx} (ht : Acceptable R db t) {depth : Nat}
    (hdepth : ∀ i ∈ t.inputs, rank i.reference.digest < depth) (hcf : (db (txId R.H t)).confirmed = false) :
    ∃ m, generateProof R.H db depth [t] = .ok (some ([t], m)) ∧ validate R [t] m = .ok true := by
  have hnode : ∀ i ∈ t.inputs, ∃ y, genNode db depth i.reference.digest = .ok (some y) := fun i hi =>
    genNode_made rank (fun d u hu hc j hj => ⟨hrank d u hu hc j hj, acceptable_spent (hall d u hu hc) j hj⟩) depth _ (hdepth i hi)
      (acceptable_spent ht i hi)
  obtain ⟨⟨p, m⟩, hg⟩ := genPayment_made (H := R.H) (n := depth) [t] [] .nil (by
    intro u hu
    rw [List.mem_singleton] at hu
    subst hu
    exact ⟨hcf, hnode⟩)
  have hp : p = [t] := (C101_generated R.H db depth [t] p m hg).1
  subst hp
  refine ⟨m, hg, ?_⟩
  refine C101_accepted R db depth [t] [t] m hdb hall ?_ (List.nodup_cons.2 ⟨by simp, List.nodup_nil⟩) hg
  intro u hu
  rw [List.mem_singleton] at hu
  subst hu
  exact ht

/-- **C157**: what a wallet makes of such a design can be proved from its database, and the proof is accepted by anyone who knows
the headers that the database has. -/
theorem C157_accepted (E : Ecdsa P) (hashes : HashOp → Bytes → Bytes) (hlen : ∀ b, (hashes .hash160 b).length = 20) (R : Rules)
    (henv : R.env = standardEnv E.curve R.H hashes) (hr : 9 ≤ R.rounds) (hdb : Truthful R db)
    (hall : ∀ d t, (db d).transaction = some t → (db d).confirmed = false → Acceptable R db t) (rank : Digest → Nat)
    (hrank : Ranked db rank) (t : Redeemable) (ht : Payable E (hashes .hash160) db t) (depth : Nat)
    (hdepth : ∀ r ∈ t.inputs, rank r.input.reference.digest < depth) :
    ∃ x, t.redeem E (hashes .hash160) R.H = .ok x ∧ ((db (txId R.H x.plain)).confirmed = false →
      ∃ m, generateProof R.H db depth [x.plain] = .ok (some ([x.plain], m)) ∧ validate R [x.plain] m = .ok true) := by
  obtain ⟨x, h1, h2, h3, h4⟩ := C157_acceptable E hashes hlen R henv hr t ht
  refine ⟨x, h1, acceptable_proved hdb hall hrank h4 ?_⟩
  intro i hi
  have : i.reference ∈ t.inputs.map (·.input.reference) := by
    rw [← h3]
    exact List.mem_map_of_mem hi
  obtain ⟨r, hr, he⟩ := List.mem_map.1 this
  rw [← he]
  exact hdepth r hr

/-- **C157**, if of each block at most two transactions occur or they are met in the order of the block, and every block has at least
two: the proof made for a payment is written as BEEF; who reads this and has the headers has the payment, and accepts it. -/
theorem C157_received_partial {R : Rules} {depth : Nat} {payment p : List Tx} {m : NodeMap} {size : Digest → Nat}
    {leaf : Digest → Nat → Digest} {height : Digest → Nat} {at' : Nat → Option Header} (hdb : Truthful R db)
    (hall : ∀ d t, (db d).transaction = some t → (db d).confirmed = false → Acceptable R db t)
    (hf : Filed R.H db) (hnew : ∀ t ∈ payment, (db (txId R.H t)).transaction = none) (hnd : (payment.map (txId R.H)).Nodup)
    (hpay : ∀ t ∈ payment, Acceptable R db t) (hg : generateProof R.H db depth payment = .ok (some (p, m)))
    (hm : Mined R.H size leaf height m) (hi : InOrder m) (hv : Held R at' m) :
    ∃ b, Beef.ofProof p m = .ok b ∧ (BeefFits b → ∀ rest, Beef.read (b.write ++ rest) = .ok (b, rest)) ∧
      ∃ m', b.readProof R.H at' = .ok (payment.reverse, m') ∧ validate R payment.reverse m' = .ok true := by
  obtain ⟨hc, hp, hu⟩ := C157_proof hf hnew hnd hg
  obtain ⟨rfl, -, -⟩ := C101_generated R.H db depth payment p m hg
  obtain ⟨b, m', h1, h2, h3⟩ := C116_roundtrip_partial hc hp hm hi hu hv
  refine ⟨b, h1, fun hb rest => C56_roundtrip_partial b hb rest, m', h2, ?_⟩
  rw [h3]
  exact C101_accepted R db depth payment payment.reverse m hdb hall hpay (List.Nodup.of_map _ hnd) hg

/-! ### A case -/

def walletKey : Secret := ⟨.main, List.replicate 31 0 ++ [1], true⟩

/-- A payment to the address of the key. -/
def walletScript : Bytes :=
  [0x76, 0xa9, 0x14] ++ exampleHash160 (exampleLib.enc true (pointOf exampleEcdsa walletKey)) ++ [0x88, 0xac]

def walletCoin : Tx := ⟨1, [], [⟨10, walletScript⟩], 0⟩

def walletId : Digest := txId smallHash walletCoin

/-- The first transaction of a block of two. -/
def walletProof : Confirmation := ⟨⟨0, [some 6]⟩, 1, exampleHeader (joined smallHash walletId 6) 1⟩

/-- A database that has the coin with some proof. -/
def walletDb (c : Confirmation) (d : Digest) : Found := if d = walletId then ⟨some walletCoin, some c⟩ else ⟨none, none⟩

/-- Rules for who knows one header. -/
def walletRules (c : Confirmation) : Rules where
  H := smallHash
  known := fun d => d == c.header.merkleRoot
  genesis := .never
  unset := .never
  env := standardEnv exampleEcdsa.curve smallHash fun _ => exampleHash160
  rounds := 10

/-- Sends 9 of the 10. -/
def walletDesign : Redeemable :=
  ⟨1, [⟨⟨⟨walletId, 0⟩, 0xffffffff, ⟨10, walletScript⟩, 107, []⟩, [⟨walletKey, 0x41⟩]⟩], [⟨9, [0x51]⟩], 0⟩

def walletAt (n : Nat) : Option Header := if n = 1 then some walletProof.header else none

theorem walletDb_some {c : Confirmation} {d : Digest} {t : Tx} (h : (walletDb c d).transaction = some t) :
    d = walletId ∧ t = walletCoin := by
  unfold walletDb at h
  split at h
  · rename_i hd
    exact ⟨hd, by simpa using h.symm⟩
  · simp at h

/-- The only transaction of a block. -/
def aloneProof : Confirmation := ⟨⟨0, []⟩, 1, exampleHeader walletId 1⟩

/-- The design and the database meet the hypotheses. -/
theorem wallet_meets (c : Confirmation) (hc : c = walletProof ∨ c = aloneProof) :
    Payable exampleEcdsa exampleHash160 (walletDb c) walletDesign ∧ Truthful (walletRules c) (walletDb c) ∧
    Filed smallHash (walletDb c) ∧ (∀ d t, (walletDb c d).transaction = some t → (walletDb c d).confirmed = false →
      Acceptable (walletRules c) (walletDb c) t) ∧ Ranked (walletDb c) (fun _ => 0) := by
  have hcf : (walletDb c walletId).confirmed = true := by
    rcases hc with rfl | rfl <;> decide +kernel
  have hno : ∀ d t, (walletDb c d).transaction = some t → (walletDb c d).confirmed = false → False := by
    intro d t h1 h2
    obtain ⟨rfl, -⟩ := walletDb_some h1
    rw [hcf] at h2
    cases h2
  refine ⟨⟨?_, ?_, ?_, 9, 10, by decide +kernel, by decide +kernel, by decide⟩, ?_, ?_, fun d t h1 h2 => (hno d t h1 h2).elim,
    fun d t h1 h2 => (hno d t h1 h2).elim⟩
  · intro r hr
    simp only [walletDesign, List.mem_singleton] at hr
    subst hr
    exact ⟨walletKey, 0x41, _, rfl, by decide +kernel, .address _ (payToAddress_compile (exampleHash160_length _)) (by decide +kernel),
      by decide, [], by simp, rfl⟩
  · intro r hr g hg
    simp only [walletDesign, List.mem_singleton] at hr
    subst hr
    simp only [List.mem_singleton] at hg
    subst hg
    exact ⟨1, by decide, false, by decide⟩
  · intro r hr
    simp only [walletDesign, List.mem_singleton] at hr
    subst hr
    exact ⟨walletCoin, by show (walletDb c walletId).transaction = _; rw [walletDb, if_pos rfl], rfl⟩
  · intro d t c' h1 h2 h3
    obtain ⟨rfl, rfl⟩ := walletDb_some h1
    have : c' = c := by
      unfold walletDb at h2
      rw [if_pos rfl] at h2
      simpa using h2.symm
    subst this
    rcases hc with rfl | rfl
    · exact ⟨by decide +kernel, by decide +kernel⟩
    · exact ⟨by decide +kernel, by decide +kernel⟩
  · intro d t h
    obtain ⟨rfl, rfl⟩ := walletDb_some h
    rfl

/-- What is made of the design is new, and its proof is that of the coin. -/
theorem wallet_made (c : Confirmation) (hc : c = walletProof ∨ c = aloneProof) :
    ∃ x, walletDesign.redeem exampleEcdsa exampleHash160 smallHash = .ok x ∧ (walletDb c (txId smallHash x.plain)).transaction = none ∧
    generateProof smallHash (walletDb c) 1 [x.plain] = .ok (some ([x.plain], .cons walletId (.confirmed walletCoin c) .nil)) := by
  have hx : ((walletDesign.redeem exampleEcdsa exampleHash160 smallHash).toOption.any fun x =>
      decide (txId smallHash x.plain ≠ walletId) && decide (x.plain.inputs.map (·.reference) = [⟨walletId, 0⟩])) = true := by
    decide +kernel
  cases hr : walletDesign.redeem exampleEcdsa exampleHash160 smallHash with
  | error e => rw [hr] at hx; cases hx
  | ok x =>
    rw [hr] at hx
    simp only [Except.toOption, Option.any_some, Bool.and_eq_true, decide_eq_true_eq] at hx
    obtain ⟨h1, h2⟩ := hx
    have hnone : walletDb c (txId smallHash x.plain) = ⟨none, none⟩ := if_neg h1
    have hnode : genNode (walletDb c) 1 walletId = .ok (some (.confirmed walletCoin c)) := by
      have e : walletDb c walletId = ⟨some walletCoin, some c⟩ := if_pos rfl
      have hcf : (walletDb c walletId).confirmed = true := by
        rcases hc with rfl | rfl <;> decide +kernel
      rw [e] at hcf
      rw [genNode, e]
      simp only [hcf]
    obtain ⟨i, hi, hir⟩ : ∃ i, x.plain.inputs = [i] ∧ i.reference = ⟨walletId, 0⟩ := by
      cases hl : x.plain.inputs with
      | nil => rw [hl] at h2; cases h2
      | cons i l =>
        rw [hl] at h2
        simp only [List.map_cons, List.cons.injEq, List.map_eq_nil_iff] at h2
        exact ⟨i, by rw [h2.2], h2.1⟩
    refine ⟨x, rfl, by rw [hnone], ?_⟩
    have hcf : (walletDb c (txId smallHash x.plain)).confirmed = false := by rw [hnone]; rfl
    simp [generateProof, genPayment, hcf, hi, hir, genMissing, hnode, Except.bind, NodeMap.has, NodeMap.put]

-- the proof can be written
example (m : NodeMap) (hm : m = .cons walletId (.confirmed walletCoin walletProof) .nil) :
    Mined smallHash (fun _ => 2) (fun _ i => if i = 0 then walletId else 6) (fun _ => 1) m ∧ InOrder m ∧
    Held (walletRules walletProof) walletAt m := by
  subst hm
  have hw : (NodeMap.cons walletId (.confirmed walletCoin walletProof) .nil).walk = [(walletId, .confirmed walletCoin walletProof)] := rfl
  refine ⟨?_, ?_, ?_⟩
  · rw [Mined, hw]
    intro k t c he r hr
    simp only [List.mem_cons, Prod.mk.injEq, Node.confirmed.injEq, List.not_mem_nil, or_false] at he
    obtain ⟨rfl, rfl, rfl⟩ := he
    subst hr
    refine ⟨by decide, by decide, by decide, rfl, ?_, by simp [walletProof, exampleHeader, node, width], rfl, by decide⟩
    simp [walletProof, IsBranch, width, Bumps.Spec.digestAt, node, Bumps.Spec.other]
  · intro r
    right
    refine Nat.le_trans (List.length_filterMap_le _ _) ?_
    unfold met
    rw [hw]
    simp [keep]
  · rw [Held, hw]
    intro k t c he
    simp only [List.mem_cons, Prod.mk.injEq, Node.confirmed.injEq, List.not_mem_nil, or_false] at he
    obtain ⟨rfl, rfl, rfl⟩ := he
    exact ⟨rfl, by decide +kernel, by decide +kernel, by decide +kernel⟩

/-- **C157** is false of BEEF if a wallet spends the only transaction of a block: the payment is made, proved, and accepted with its
proof, but the BEEF written of it is not valid. -/
theorem C157_false_alone : ∃ (R : Rules) (db : Digest → Found) (t : Redeemable) (x : XTx) (m : NodeMap) (b : Beef),
    Payable exampleEcdsa exampleHash160 db t ∧ t.redeem exampleEcdsa exampleHash160 R.H = .ok x ∧
    generateProof R.H db 1 [x.plain] = .ok (some ([x.plain], m)) ∧ validate R [x.plain] m = .ok true ∧
    Beef.ofProof [x.plain] m = .ok b ∧ b.valid R.H ≠ .ok true := by
  obtain ⟨h1, h2, h3, h4, h5⟩ := wallet_meets aloneProof (.inr rfl)
  obtain ⟨x, g1, g2, g3⟩ := wallet_made aloneProof (.inr rfl)
  obtain ⟨x', k1, k2⟩ := C157_accepted exampleEcdsa (fun _ => exampleHash160) exampleHash160_length (walletRules aloneProof) rfl (by decide)
    h2 h4 (fun _ => 0) h5 walletDesign h1 1 (fun _ _ => by decide)
  have : x' = x := by
    have := k1.symm.trans g1
    injection this
  subst this
  obtain ⟨m, k3, k4⟩ := k2 (by rw [Found.confirmed]; show ((walletDb aloneProof (txId smallHash x'.plain)).transaction.isSome && _) = false; rw [g2]; rfl)
  have hm : m = .cons walletId (.confirmed walletCoin aloneProof) .nil := by
    have := k3.symm.trans g3
    simpa using this
  subst hm
  obtain ⟨b, b1, b2⟩ := C116_single_false (H := smallHash) (pays := [x'.plain]) walletId walletCoin aloneProof rfl
  exact ⟨walletRules aloneProof, walletDb aloneProof, walletDesign, x', _, b, h1, g1, g3, k4, b1, b2⟩

end Verif.Pay
