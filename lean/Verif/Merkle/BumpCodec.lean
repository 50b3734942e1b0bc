import Verif.Merkle.Bump
import Verif.Serial.Lemmas

/-
C33: BUMPs and their bytes.
-/

namespace Verif.Bumps

/-! ### Specification: the BUMPs that have a serialisation -/

/-- Offsets of a level are strictly ascending. -/
def Ascending {D : Type} (l : List (Node D)) : Prop := l.Pairwise fun a b => a.offset < b.offset

/-- A node is either marked as a duplicate, without a digest, or not so marked, with a
digest; the offset is a 64-bit number. -/
def NodeFits {D : Type} (n : Node D) : Prop :=
  n.offset < 2 ^ 64 ∧ (n.flag = duplicate ↔ n.digest = none)

def LevelFits {D : Type} (l : List (Node D)) : Prop :=
  (l.length < 2 ^ 31 ∧ ∀ n ∈ l, NodeFits n) ∧ Ascending l

def Fits {D : Type} (b : Bump D) : Prop := b.height < 2 ^ 64 ∧ ∀ l ∈ b.path, LevelFits l

/-! ### Lemmas -/

theorem insert_last {D : Type} (n : Node D) : ∀ l : List (Node D), (∀ m ∈ l, m.offset < n.offset) →
    insert n l = l ++ [n]
  | [], _ => rfl
  | m :: l, h => by
    have := h m (by simp)
    rw [insert, if_neg (by omega), insert_last n l (fun x hx => h x (by simp [hx]))]
    rfl

theorem foldl_insert {D : Type} : ∀ (l acc : List (Node D)), Ascending (acc ++ l) →
    l.foldl (fun l n => insert n l) acc = acc ++ l
  | [], acc, _ => by simp
  | n :: l, acc, h => by
    rw [List.foldl_cons, insert_last n acc, foldl_insert l (acc ++ [n])]
    · simp
    · simpa using h
    · intro m hm
      have h' := List.pairwise_append.mp h
      exact h'.2.2 m hm n (by simp)

theorem rt_node : RoundTrip Node.write Node.read NodeFits := by
  intro n hn rest
  unfold Node.write Node.read
  rw [List.append_assoc, List.append_assoc, Reader.bind_ok (rt_varInt _ hn.1 _),
    Reader.bind_ok (rt_byte _ trivial _)]
  obtain ⟨o, f, d⟩ := n
  cases d with
  | none =>
    have : f = duplicate := hn.2.mpr rfl
    subst this
    rfl
  | some d =>
    have hf : f ≠ duplicate := fun e => by have := hn.2.mp e; simp at this
    rw [if_neg (by simpa using hf), Reader.bind_ok (rt_fix256 d trivial _)]
    rfl

theorem rt_level : RoundTrip (varSeqWrite Node.write) levelRead LevelFits := by
  intro l hl rest
  unfold levelRead
  rw [Reader.bind_ok (rt_varSeq rt_node l hl.1 rest), foldl_insert l [] hl.2]
  rfl

theorem strict_node : Node.read.Strict :=
  strict_bind strict_varInt fun _ => strict_bind strict_byte fun f => by
    by_cases hf : (f == duplicate) = true
    · simp only [hf, if_true]; exact strict_pure _
    · simp only [hf]; exact strict_bind (strict_fix _ _) fun _ => strict_pure _

theorem strict_level : levelRead.Strict :=
  strict_bind (strict_varSeq strict_node) fun _ => strict_pure _

theorem strict_bump : Bump.read.Strict :=
  strict_bind strict_varInt fun _ => strict_bind strict_byte fun d =>
    strict_bind (strict_many strict_level d.toNat) fun _ => strict_pure _

theorem fits_valid {D : Type} (n : Node D) : NodeFits n → n.valid = true := by
  intro h
  obtain ⟨o, f, d⟩ := n
  cases d with
  | none => have : f = duplicate := h.2.mpr rfl
            subst this; rfl
  | some d =>
    have hf : f ≠ duplicate := fun e => by have := h.2.mp e; simp at this
    simp [Node.valid, hf]

/-! ### Theorems -/

/-- A BUMP of fewer than 256 levels is read back from its bytes, whatever follows. -/
theorem C33_roundtrip_partial (b : Bump Digest) (h : Fits b) (hd : b.path.length < 256) (rest : Bytes) :
    Bump.read (b.write ++ rest) = .ok (b, rest) := by
  unfold Bump.write Bump.read
  rw [List.append_assoc, List.append_assoc, Reader.bind_ok (rt_varInt _ h.1 _),
    Reader.bind_ok (rt_byte _ trivial _)]
  have : (UInt8.ofNat b.path.length).toNat = b.path.length := by
    simp; omega
  rw [this, Reader.bind_ok (rt_many rt_level b.path h.2 rest)]
  rfl

/-- A valid BUMP of fewer than 256 levels is the one its bytes stand for. -/
theorem C33_bytes_partial (b : Bump Digest) (h : Fits b) (hne : b.path ≠ []) (hd : b.path.length < 256) :
    ∃ bs, b.toBytes = some bs ∧ Bump.ofBytes bs = .ok b := by
  refine ⟨b.write, ?_, ?_⟩
  · unfold Bump.toBytes Bump.valid
    rw [if_pos]
    simp only [Bool.and_eq_true, bne_iff_ne, ne_eq, List.length_eq_zero_iff, hne, not_false_eq_true, true_and,
      List.all_eq_true]
    exact fun l hl n hn => fits_valid n ((h.2 l hl).1.2 n hn)
  · unfold Bump.ofBytes
    have := C33_roundtrip_partial b h hd []
    rw [List.append_nil] at this
    rw [this]

/-- Bytes that end too soon give the empty BUMP, which is not valid. -/
theorem C33_truncated (b : Bump Digest) (h : Fits b) (hd : b.path.length < 256) (p : Bytes)
    (hp : p <+: b.write) (hne : p ≠ b.write) : Bump.ofBytes p = .ok ⟨0, []⟩ := by
  have h1 := C33_roundtrip_partial b h hd []
  obtain ⟨c, h2, _, h4⟩ := strict_bump _ _ _ h1
  rw [List.append_nil, List.append_nil] at h2
  subst h2
  unfold Bump.ofBytes
  rw [h4 p hp hne]

theorem sum_length {α : Type} (f : α → Bytes) (g : α → Nat) : ∀ l : List α, (∀ a ∈ l, (f a).length = g a) →
    (l.flatMap f).length = (l.map g).sum
  | [], _ => rfl
  | a :: l, h => by
    rw [List.flatMap_cons, List.length_append, List.map_cons, List.sum_cons, h a (by simp),
      sum_length f g l (fun x hx => h x (by simp [hx]))]

/-- The announced size is the number of bytes written. -/
theorem C33_size_exact (b : Bump Digest) (h : Fits b) : b.write.length = b.serializedSize := by
  unfold Bump.write Bump.serializedSize
  rw [List.length_append, List.length_append, varIntWrite_length]
  congr 1
  apply sum_length
  intro l hl
  unfold varSeqWrite
  rw [List.length_append, varIntWrite_length]
  congr 1
  apply sum_length
  intro n hn
  have hf := (h.2 l hl).1.2 n hn
  unfold Node.write Node.serializedSize
  rw [List.length_append, List.length_append, varIntWrite_length]
  obtain ⟨o, f, d⟩ := n
  cases d with
  | none =>
    have : f = duplicate := hf.2.mpr rfl
    subst this; simp
  | some d =>
    have hf : f ≠ duplicate := fun e => by have := hf.2.mp e; simp at this
    simp [hf]

/-- The number of levels is written as one byte: with 256 levels or more another BUMP is
read. -/
theorem C33_deep_false (b : Bump Digest) (h : Fits b) (hd : 256 ≤ b.path.length) :
    ∃ rest, Bump.read b.write = .ok (⟨b.height, b.path.take (b.path.length % 256)⟩, rest) ∧
      (⟨b.height, b.path.take (b.path.length % 256)⟩ : Bump Digest) ≠ b := by
  refine ⟨(b.path.drop (b.path.length % 256)).flatMap (varSeqWrite Node.write), ?_, ?_⟩
  · unfold Bump.write Bump.read
    rw [List.append_assoc, Reader.bind_ok (rt_varInt _ h.1 _), Reader.bind_ok (rt_byte _ trivial _)]
    have e1 : (UInt8.ofNat b.path.length).toNat = (b.path.take (b.path.length % 256)).length := by
      simp; omega
    have e2 : b.path.flatMap (varSeqWrite Node.write) =
        (b.path.take (b.path.length % 256)).flatMap (varSeqWrite Node.write) ++
          (b.path.drop (b.path.length % 256)).flatMap (varSeqWrite Node.write) := by
      rw [← List.flatMap_append, List.take_append_drop]
    rw [e1, e2, Reader.bind_ok (rt_many rt_level _ (fun l hl => h.2 l (List.mem_of_mem_take hl)) _)]
    rfl
  · intro e
    have := congrArg (fun x => x.path.length) e
    simp at this
    omega

/-- Two leaves, one of them to be duplicated a level up. -/
def sampleBump : Bump Digest :=
  ⟨800000, [[⟨4, client, some 7⟩, ⟨5, intermediate, some 8⟩], [⟨3, duplicate, none⟩], [⟨0, intermediate, some 9⟩]]⟩

example : Fits sampleBump ∧ sampleBump.path ≠ [] ∧ sampleBump.path.length < 256 := by
  refine ⟨⟨by decide, ?_⟩, by decide, by decide⟩
  intro l hl
  simp [sampleBump] at hl
  rcases hl with rfl | rfl | rfl <;>
    exact ⟨⟨by decide, by simp [NodeFits, duplicate, client, intermediate]⟩, by simp [Ascending]⟩

end Verif.Bumps
