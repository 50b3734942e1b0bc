import Verif.P2p.Version
import Verif.Serial.Lemmas

/-
Property C144: a node tells others what it was told to say of itself.
-/

namespace Verif.P2p

namespace Spec

/-- Two messages say the same, as far as their version of the protocol has it: up to 105 there is no sender, nonce, agent or height, and up to
70000 there is no word on relaying. -/
def Same (a b : Version) : Prop :=
  a.version = b.version ∧ a.services = b.services ∧ a.timestamp = b.timestamp ∧ a.receive = b.receive ∧
    (105 < a.version.toInt → a.source = b.source ∧ a.nonce = b.nonce ∧ a.agent = b.agent ∧ a.height = b.height) ∧
    (70000 < a.version.toInt → a.relay = b.relay)

/-- What the protocol has at a place: the number of so many bytes, the lowest first. -/
def at' (b : Bytes) (place size : Nat) : Nat := leNat ((b.drop place).take size)

/-- The port that the protocol has at a place: two bytes, the higher first. -/
def portAt (b : Bytes) (place : Nat) : Nat := 256 * at' b place 1 + at' b (place + 1) 1

end Spec

open Spec

theorem wfix_inj {k w : Nat} {x y : BitVec w} (hw : 2 ^ w = 256 ^ k) (h : wfix k x = wfix k y) : x = y := by
  apply BitVec.eq_of_toNat_eq
  exact leBytes_inj k _ _ (hw ▸ x.isLt) (hw ▸ y.isLt) h

theorem append_eq {a b c d : Bytes} (hl : a.length = c.length) (h : a ++ b = c ++ d) : a = c ∧ b = d := List.append_inj h hl

@[simp] theorem endpoint_length (e : Endpoint) : e.write.length = 18 := by simp [Endpoint.write]
@[simp] theorem address_length (a : NetAddress) : a.write.length = 26 := by simp [NetAddress.write]
@[simp] theorem write0_length (h : Version) : h.write0.length = 42 := by simp [Version.write0]

theorem endpoint_inj {a b : Endpoint} (h : a.write = b.write) : a = b := by
  obtain ⟨h1, h2⟩ := append_eq (by simp) h
  cases a; cases b
  simp only [Endpoint.mk.injEq]
  exact ⟨wfix_inj (by decide) h1, wfix_inj (by decide) h2⟩

theorem address_inj {a b : NetAddress} (h : a.write = b.write) : a = b := by
  obtain ⟨h1, h2⟩ := append_eq (by simp) h
  cases a; cases b
  simp only [NetAddress.mk.injEq]
  exact ⟨wfix_inj (by decide) h1, endpoint_inj h2⟩

theorem write0_inj {a b : Version} (h : a.write0 = b.write0) :
    a.version = b.version ∧ a.services = b.services ∧ a.timestamp = b.timestamp ∧ a.receive = b.receive := by
  obtain ⟨h, h4⟩ := append_eq (by simp) h
  obtain ⟨h, h3⟩ := append_eq (by simp) h
  obtain ⟨h1, h2⟩ := append_eq (by simp) h
  exact ⟨wfix_inj (by decide) h1, wfix_inj (by decide) h2, wfix_inj (by decide) h3, address_inj h4⟩

/-- A string with its length in front is told from what follows. -/
theorem varString_inj {a b x y : Bytes} (ha : a.length < 2 ^ 64) (hb : b.length < 2 ^ 64)
    (h : varStringWrite a ++ x = varStringWrite b ++ y) : a = b ∧ x = y := by
  unfold varStringWrite at h
  rw [List.append_assoc, List.append_assoc] at h
  have h1 := rt_varInt a.length ha (a ++ x)
  have h2 := rt_varInt b.length hb (b ++ y)
  rw [h, h2] at h1
  simp only [Except.ok.injEq, Prod.mk.injEq] at h1
  exact append_eq h1.1.symm h1.2.symm

/-- **C144** A message is written as another one exactly if they say the same. -/
theorem C144_determines (a b : Version) (ha : a.agent.length < 2 ^ 64) (hb : b.agent.length < 2 ^ 64) : a.write = b.write ↔ Same a b := by
  constructor
  · intro h
    unfold Version.write Version.write106 at h
    simp only [List.append_assoc a.write0, List.append_assoc b.write0] at h
    obtain ⟨h0, h⟩ := append_eq (by simp) h
    obtain ⟨h1, h2, h3, h4⟩ := write0_inj h0
    refine ⟨h1, h2, h3, h4, fun hv => ?_, fun hv => ?_⟩
    · rw [← h1, if_neg (Int.not_le.2 hv), if_neg (Int.not_le.2 hv)] at h
      simp only [List.append_assoc] at h
      obtain ⟨h5, h⟩ := append_eq (by simp) h
      obtain ⟨h6, h⟩ := append_eq (by simp) h
      obtain ⟨h7, h⟩ := varString_inj ha hb h
      obtain ⟨h8, -⟩ := append_eq (by simp) h
      exact ⟨address_inj h5, wfix_inj (by decide) h6, h7, wfix_inj (by decide) h8⟩
    · have hv' : 105 < a.version.toInt := by omega
      rw [← h1, if_neg (Int.not_le.2 hv'), if_neg (Int.not_le.2 hv'), if_neg (Int.not_le.2 hv), if_neg (Int.not_le.2 hv)] at h
      simp only [List.append_assoc] at h
      obtain ⟨-, h⟩ := append_eq (by simp) h
      obtain ⟨-, h⟩ := append_eq (by simp) h
      obtain ⟨-, h⟩ := varString_inj ha hb h
      obtain ⟨-, h⟩ := append_eq (by simp) h
      simpa using h
  · rintro ⟨h1, h2, h3, h4, h5, h6⟩
    unfold Version.write Version.write106 Version.write0
    rw [← h1, h2, h3, h4]
    by_cases hv : 105 < a.version.toInt
    · obtain ⟨e1, e2, e3, e4⟩ := h5 hv
      rw [if_neg (Int.not_le.2 hv), if_neg (Int.not_le.2 hv), e1, e2, e3, e4]
      by_cases hv' : 70000 < a.version.toInt
      · rw [if_neg (Int.not_le.2 hv'), if_neg (Int.not_le.2 hv'), h6 hv']
      · rw [if_pos (Int.not_lt.1 hv'), if_pos (Int.not_lt.1 hv')]
    · rw [if_pos (Int.not_lt.1 hv), if_pos (Int.not_lt.1 hv), if_pos (by omega), if_pos (by omega)]

theorem varString_length (b : Bytes) : (varStringWrite b).length = varStringSize b.length := by
  simp only [varStringWrite, varStringSize, List.length_append, varIntWrite_length]
  omega

/-- **C144** How many bytes are written, by the version of the protocol. -/
theorem C144_size_partial (h : Version) :
    (h.version.toInt ≤ 105 → h.write.length = 42) ∧
      (105 < h.version.toInt → h.version.toInt ≤ 70000 → h.write.length = 76 + varStringSize h.agent.length) ∧
      (70000 < h.version.toInt → h.write.length = 77 + varStringSize h.agent.length) := by
  unfold Version.write Version.write106
  refine ⟨fun h1 => ?_, fun h1 h2 => ?_, fun h1 => ?_⟩
  · rw [if_pos h1, if_pos (by omega)]
    simp
  · rw [if_neg (Int.not_le.2 h1), if_pos h2]
    simp only [List.length_append, write0_length, address_length, wfix_length, varString_length, List.length_nil]
    omega
  · rw [if_neg (by omega), if_neg (Int.not_le.2 h1)]
    simp only [List.length_append, write0_length, address_length, wfix_length, varString_length, List.length_cons, List.length_nil]
    omega

/-- **C144, false as stated** The size that is reported is never the size that is written, whatever the version: it is eight more
for the version written with all fields, and also for that without the last, and four more for the oldest. -/
theorem C144_false_size (h : Version) : (h.write.length ≠ h.size ∧ h.write106.length ≠ h.size106) ∧
    (70000 < h.version.toInt → h.size = h.write.length + 8) ∧ (105 < h.version.toInt → h.size106 = h.write106.length + 8) ∧
    h.size0 = h.write0.length + 4 := by
  have hs := C144_size_partial h
  have h106 : 105 < h.version.toInt → h.size106 = h.write106.length + 8 := by
    intro hv
    unfold Version.size106 Version.write106
    rw [if_neg (by omega)]
    simp only [List.length_append, write0_length, address_length, wfix_length, varString_length]
    omega
  refine ⟨⟨?_, ?_⟩, fun hv => ?_, h106, by simp [Version.size0]⟩
  · unfold Version.size
    by_cases h1 : h.version.toInt ≤ 105
    · rw [hs.1 h1]; omega
    · by_cases h2 : h.version.toInt ≤ 70000
      · rw [hs.2.1 (Int.not_le.1 h1) h2]; omega
      · rw [hs.2.2 (Int.not_le.1 h2)]; omega
  · by_cases h1 : h.version.toInt ≤ 105
    · unfold Version.size106 Version.write106
      rw [if_pos h1]
      simp only [List.append_nil, write0_length]; omega
    · have := h106 (by omega); omega
  · unfold Version.size
    rw [hs.2.2 hv]; omega

theorem leNat_append2 (a b : Bytes) : leNat (a ++ b) = leNat a + 256 ^ a.length * leNat b := by
  induction a with
  | nil => simp [leNat]
  | cons x a ih =>
    simp only [List.cons_append, leNat, ih, List.length_cons, Nat.pow_succ]
    rw [Nat.mul_add, Nat.mul_comm (256 ^ a.length) 256, Nat.mul_assoc]
    omega

theorem wfix_take (k j : Nat) (x : BitVec w) (h : j ≤ k) : (wfix k x).take j = leBytes j x.toNat := by
  unfold wfix
  generalize x.toNat = n
  induction j generalizing k n with
  | zero => simp [leBytes]
  | succ j ih =>
    match k with
    | 0 => omega
    | k + 1 => simp only [leBytes, List.take_succ_cons, ih k (by omega)]

theorem leNat_leBytes_mod (k n : Nat) : leNat (leBytes k n) = n % 256 ^ k := by
  induction k generalizing n with
  | zero => simp [leBytes, leNat, Nat.mod_one]
  | succ k ih =>
    simp only [leBytes, leNat, ih]
    have e : (256 : Nat) ^ (k + 1) = 256 * 256 ^ k := by rw [Nat.pow_succ, Nat.mul_comm]
    rw [UInt8.toNat_ofNat', show (2 : Nat) ^ 8 = 256 from rfl, Nat.mod_mod, e, Nat.mod_mul]

/-- **C144, false as stated** The protocol has eight bytes for the time.  A node that reads them finds the time and the services of the receiver. -/
theorem C144_false_time (h : Version) : at' h.write 12 8 = h.timestamp.toNat + 2 ^ 32 * (h.receive.service.toNat % 2 ^ 32) := by
  have e : (h.write.drop 12).take 8 = wfix 4 h.timestamp ++ (wfix 8 h.receive.service).take 4 := by
    unfold Version.write Version.write106 Version.write0 NetAddress.write
    simp only [List.append_assoc]
    rw [← List.append_assoc (wfix 4 h.version), List.drop_left' (by simp), List.take_append, List.take_of_length_le (by simp)]
    simp only [wfix_length]
    rw [List.take_append_of_le_length (by simp)]
  unfold at'
  rw [e, leNat_append2, wfix_take 8 4 _ (by decide), leNat_leBytes_mod, wfix_length]
  congr 1
  unfold wfix
  exact leNat_leBytes 4 _ h.timestamp.isLt

/-- **C144, false as stated** The protocol has the higher byte of a port first.  Who reads an endpoint finds its port only if both bytes are the
same. -/
theorem C144_false_port (e : Endpoint) : portAt e.write 16 = e.port.toNat ↔ e.port.toNat / 256 = e.port.toNat % 256 := by
  have hd : e.write.drop 16 = leBytes 2 e.port.toNat := by
    unfold Endpoint.write
    rw [List.drop_left' (by simp)]
    rfl
  have h2 : e.write.drop 17 = (leBytes 2 e.port.toNat).drop 1 := by rw [← hd, List.drop_drop]
  have hlt := e.port.isLt
  unfold portAt at'
  rw [hd, h2]
  simp only [leBytes, List.take_succ_cons, List.take_zero, List.drop_succ_cons, List.drop_zero, leNat, UInt8.toNat_ofNat']
  omega

/-- **C144** An address of 16 bytes is written as it is. -/
theorem C144_address_partial (b : Bytes) (port : BitVec 16) (h : b.length = 16) : (Endpoint.ofAddress (some b) port).write.take 16 = b := by
  unfold Endpoint.ofAddress Endpoint.write
  simp only [h, Nat.sub_self, List.replicate_zero, List.nil_append]
  rw [List.take_left' (by simp)]
  unfold wfix
  have hlt := leNat_lt b
  rw [h] at hlt
  rw [BitVec.toNat_ofNat, Nat.mod_eq_of_lt hlt, leBytes_leNat' 16 b h]

/-- **C144** The port that is given is the one that is written, and of an address that is not valid nothing is written but zeros. -/
theorem C144_port (b : Bytes) (port : BitVec 16) : (Endpoint.ofAddress (some b) port).write.drop 16 = wfix 2 port ∧
    (Endpoint.ofAddress none port).write = List.replicate 18 0 := by
  constructor
  · unfold Endpoint.ofAddress Endpoint.write
    exact List.drop_left' (by simp)
  · show (Endpoint.mk 0 0).write = List.replicate 18 0
    decide +kernel

/-- **C144, false as stated** An address of 4 bytes, which the protocol has behind ten zeros and two bytes 255, is taken for the address of 16 bytes
that has twelve zeros in front. -/
theorem C144_false_address (b : Bytes) (port : BitVec 16) (h : b.length = 4) :
    Endpoint.ofAddress (some b) port = Endpoint.ofAddress (some (List.replicate 12 0 ++ b)) port ∧
      (Endpoint.ofAddress (some b) port).write.take 16 ≠ List.replicate 10 0 ++ [0xff, 0xff] ++ b := by
  have e : Endpoint.ofAddress (some b) port = Endpoint.ofAddress (some (List.replicate 12 0 ++ b)) port := by
    simp [Endpoint.ofAddress, h]
  refine ⟨e, ?_⟩
  rw [e, C144_address_partial _ port (by simp [h])]
  intro he
  have := congrArg (fun l => l[10]?) he
  simp [List.replicate] at this

/-- **C144** The names of messages are kept: two that are short enough and have no zero in them are different commands.  Longer ones are written
beyond the command. -/
theorem C144_command (a b : Bytes) (ha : ∀ c ∈ a, c ≠ 0) (hb : ∀ c ∈ b, c ≠ 0) :
    (commandOf a = none ↔ 12 < a.length) ∧ (commandOf a = commandOf b → commandOf a ≠ none → a = b) := by
  refine ⟨by unfold commandOf; split <;> simp <;> omega, fun h hn => ?_⟩
  unfold commandOf at h hn
  split at h
  · split at h
    · simp only [Option.some.injEq] at h
      have key : ∀ (a b : Bytes) (m n : Nat), (∀ c ∈ a, c ≠ 0) → (∀ c ∈ b, c ≠ 0) → a ++ List.replicate m 0 = b ++ List.replicate n 0 → a = b := by
        intro a
        induction a with
        | nil =>
          intro b m n _ hb h
          cases b with
          | nil => rfl
          | cons c b =>
            have : c ∈ List.replicate m (0 : UInt8) := by
              rw [List.nil_append] at h; rw [h]; simp
            exact absurd (List.eq_of_mem_replicate this) (hb c List.mem_cons_self)
        | cons x a ih =>
          intro b m n ha hb h
          cases b with
          | nil =>
            have : x ∈ List.replicate n (0 : UInt8) := by
              rw [List.nil_append] at h; rw [← h]; simp
            exact absurd (List.eq_of_mem_replicate this) (ha x List.mem_cons_self)
          | cons c b =>
            simp only [List.cons_append, List.cons.injEq] at h
            rw [h.1, ih b m n (fun c hc => ha c (List.mem_cons_of_mem _ hc)) (fun c hc => hb c (List.mem_cons_of_mem _ hc)) h.2]
      exact key a b _ _ ha hb h
    · cases h
  · next hl => exact absurd (if_neg hl) hn

example : (Version.write ⟨70016, 1, 1700000000, ⟨1, .ofAddress (some [10, 0, 0, 1]) 8333⟩, ⟨0, ⟨0, 0⟩⟩, 7, [0x2f, 0x61, 0x2f], 800000, 1⟩).length = 81 := by
  decide +kernel

example : commandOf [0x76, 0x65, 0x72] = some [0x76, 0x65, 0x72, 0, 0, 0, 0, 0, 0, 0, 0, 0] := by decide

end Verif.P2p
