import Verif.Pay.BumpJson
import Verif.Pay.EnvelopeProps

/-
C117: the JSON of BUMPs.  C118: the JSON of BEEF.
-/

namespace Verif.Pay

open Verif Verif.SPV Verif.Net Verif.Text

/-! ### Specification -/

namespace Spec

/-- A node with a position of 64 bits that is a duplicate without a digest, or has a digest and is an intermediate one or
one of the client. -/
def NodeStandard (n : Bumps.Node Digest) : Prop :=
  n.offset < 2 ^ 64 ∧ ((n.flag = Bumps.duplicate ∧ n.digest = none) ∨
    ((n.flag = Bumps.intermediate ∨ n.flag = Bumps.client) ∧ n.digest.isSome = true))

/-- Positions do not go down. -/
def InPlace (l : List (Bumps.Node Digest)) : Prop := l.Pairwise fun a b => a.offset ≤ b.offset

/-- What a BUMP has if it can be in JSON. -/
structure BumpStandard (b : Bumps.Bump Digest) : Prop where
  height : b.height < 2 ^ 64
  path : b.path ≠ []
  nodes : ∀ l ∈ b.path, ∀ n ∈ l, NodeStandard n
  order : ∀ l ∈ b.path, InPlace l

end Spec

open Spec

/-! ### Nodes -/

theorem standard_valid {n : Bumps.Node Digest} (h : NodeStandard n) : n.valid = true := by
  obtain ⟨-, ⟨h1, h2⟩ | ⟨h1, h2⟩⟩ := h
  · simp [Bumps.Node.valid, h1, h2]
  · rcases h1 with h1 | h1 <;> simp [Bumps.Node.valid, h1, h2, Bumps.intermediate, Bumps.client, Bumps.duplicate]

theorem writeBNode_ok (n : Bumps.Node Digest) : (∃ j, writeBNode n = .ok j) ↔ n.valid = true := by
  unfold writeBNode
  cases hv : n.valid with
  | false => simp
  | true =>
    simp only [Bool.not_true, Bool.false_eq_true, if_false, iff_true]
    split
    · exact ⟨_, rfl⟩
    · rename_i hf
      cases hd : n.digest with
      | none =>
        simp [Bumps.Node.valid, hd] at hv
        exact absurd hv hf
      | some d => exact ⟨_, rfl⟩

theorem toU64_nat {n : Nat} (h : n < 2 ^ 64) : toU64 (.int n) = .ok n := by
  unfold toU64
  simp only [Except.ok.injEq]
  omega

theorem readBNode_write {n : Bumps.Node Digest} (h : NodeStandard n) {j : Json} (hj : writeBNode n = .ok j) : readBNode j = .ok n := by
  obtain ⟨o, f, d⟩ := n
  have hv := standard_valid h
  obtain ⟨ho, h⟩ := h
  simp only at ho h
  have hu := toU64_nat ho
  unfold writeBNode at hj
  rw [hv] at hj
  simp only [Bool.not_true, Bool.false_eq_true, if_false] at hj
  rcases h with ⟨rfl, rfl⟩ | ⟨hf, hd⟩
  · simp only [if_true, Except.ok.injEq] at hj
    subst hj
    simp [readBNode, Json.isObj, Json.get, hu, flagOf, Except.bind]
  · obtain ⟨d, rfl⟩ := Option.isSome_iff_exists.1 hd
    rcases hf with rfl | rfl
    · rw [if_neg (by decide), if_neg (by decide)] at hj
      simp only [Except.ok.injEq] at hj
      subst hj
      simp [readBNode, Json.isObj, Json.get, hu, flagOf, Except.bind, Except.map, readReverse_write]
    · rw [if_neg (by decide), if_pos rfl] at hj
      simp only [Except.ok.injEq] at hj
      subst hj
      simp [readBNode, Json.isObj, Json.get, hu, flagOf, Except.bind, Except.map, readReverse_write]

theorem toU64_lt {j : Json} {n : Nat} (h : toU64 j = .ok n) : n < 2 ^ 64 := by
  unfold toU64 at h
  split at h
  · simp only [Except.ok.injEq] at h
    omega
  · cases h
  · cases h

theorem readBNode_standard {j : Json} {n : Bumps.Node Digest} (h : readBNode j = .ok n) : NodeStandard n := by
  unfold readBNode at h
  split at h
  · cases h
  · split at h
    · cases h
    · rename_i o _
      cases ho : toU64 o with
      | error e => rw [ho] at h; cases h
      | ok offset =>
        have hlt := toU64_lt ho
        rw [ho] at h
        cases hd : flagOf j "duplicate".toList with
        | error e => rw [hd] at h; cases h
        | ok dup =>
          rw [hd] at h
          simp only [Except.bind] at h
          split at h
          · cases h
            exact ⟨hlt, .inl ⟨rfl, rfl⟩⟩
          · split at h
            · cases h
            · rename_i s _
              cases hc : flagOf j "txid".toList with
              | error e => rw [hc] at h; cases h
              | ok c =>
                rw [hc] at h
                simp only [Except.map, Except.ok.injEq] at h
                subst h
                refine ⟨hlt, .inr ⟨?_, rfl⟩⟩
                cases c
                · exact .inl rfl
                · exact .inr rfl
            · cases h

/-! ### Levels -/

theorem insert_mem {n x : Bumps.Node Digest} : ∀ l : List (Bumps.Node Digest), x ∈ Bumps.insert n l ↔ x = n ∨ x ∈ l
  | [] => by simp [Bumps.insert]
  | m :: l => by
    rw [Bumps.insert]
    split
    · simp
    · rw [List.mem_cons, insert_mem l, List.mem_cons]
      exact or_left_comm

theorem insert_inPlace {n : Bumps.Node Digest} : ∀ l : List (Bumps.Node Digest), InPlace l → InPlace (Bumps.insert n l)
  | [], _ => by simp [Bumps.insert, InPlace]
  | m :: l, h => by
    obtain ⟨h1, h2⟩ := List.pairwise_cons.1 h
    rw [Bumps.insert]
    split
    · rename_i hle
      refine List.pairwise_cons.2 ⟨?_, h⟩
      intro x hx
      rcases List.mem_cons.1 hx with rfl | hx
      · exact hle
      · exact Nat.le_trans hle (h1 x hx)
    · rename_i hle
      refine List.pairwise_cons.2 ⟨?_, insert_inPlace l h2⟩
      intro x hx
      rcases (insert_mem l).1 hx with rfl | hx
      · omega
      · exact h1 x hx

theorem insert_first {n : Bumps.Node Digest} {l : List (Bumps.Node Digest)} (h : InPlace (n :: l)) : Bumps.insert n l = n :: l := by
  cases l with
  | nil => rfl
  | cons m l =>
    rw [Bumps.insert, if_pos ((List.pairwise_cons.1 h).1 m (by simp))]

theorem writeBNodes_ok : ∀ l : List (Bumps.Node Digest), (∃ j, writeBNodes l = .ok j) ↔ ∀ n ∈ l, n.valid = true
  | [] => by simp [writeBNodes]
  | n :: l => by
    rw [List.forall_mem_cons, ← writeBNode_ok, ← writeBNodes_ok l, writeBNodes]
    cases writeBNode n with
    | error e => simp [Except.bind]
    | ok j =>
      cases writeBNodes l with
      | error e => simp [Except.bind, Except.map]
      | ok js => simp [Except.bind, Except.map]

theorem writeLevels_ok : ∀ ls : List (List (Bumps.Node Digest)), (∃ j, writeLevels ls = .ok j) ↔ ∀ l ∈ ls, ∀ n ∈ l, n.valid = true
  | [] => by simp [writeLevels]
  | l :: ls => by
    rw [List.forall_mem_cons, ← writeBNodes_ok, ← writeLevels_ok ls, writeLevels]
    cases writeBNodes l with
    | error e => simp [Except.bind]
    | ok j =>
      cases writeLevels ls with
      | error e => simp [Except.bind, Except.map]
      | ok js => simp [Except.bind, Except.map]

theorem readLevel_write : ∀ (l : List (Bumps.Node Digest)) (js : List Json), (∀ n ∈ l, NodeStandard n) → InPlace l →
    writeBNodes l = .ok js → readLevel js = .ok l
  | [], js, _, _, h => by cases h; rfl
  | n :: l, js, hn, ho, h => by
    rw [writeBNodes] at h
    cases hj : writeBNode n with
    | error e => rw [hj] at h; cases h
    | ok j =>
      cases hjs : writeBNodes l with
      | error e => rw [hj, hjs] at h; cases h
      | ok js' =>
        rw [hj, hjs] at h
        cases h
        rw [readLevel, readLevel_write l js' (fun x hx => hn x (by simp [hx])) (List.pairwise_cons.1 ho).2 hjs]
        simp only [Except.bind]
        rw [readBNode_write (hn n (by simp)) hj]
        simp only [Except.map, insert_first ho]

theorem readLevels_write : ∀ (ls : List (List (Bumps.Node Digest))) (js : List Json), (∀ l ∈ ls, ∀ n ∈ l, NodeStandard n) →
    (∀ l ∈ ls, InPlace l) → writeLevels ls = .ok js → readLevels js = .ok ls ∧ js.length = ls.length
  | [], js, _, _, h => by cases h; exact ⟨rfl, rfl⟩
  | l :: ls, js, hn, ho, h => by
    rw [writeLevels] at h
    cases hj : writeBNodes l with
    | error e => rw [hj] at h; cases h
    | ok j =>
      cases hjs : writeLevels ls with
      | error e => rw [hj, hjs] at h; cases h
      | ok js' =>
        rw [hj, hjs] at h
        cases h
        obtain ⟨h1, h2⟩ := readLevels_write ls js' (fun x hx => hn x (by simp [hx])) (fun x hx => ho x (by simp [hx])) hjs
        refine ⟨?_, by simp [h2]⟩
        rw [readLevels, Json.items, readLevel_write l j (hn l (by simp)) (ho l (by simp)) hj]
        simp only [Except.bind]
        rw [h1]
        rfl

theorem readLevel_standard : ∀ (js : List Json) (l : List (Bumps.Node Digest)), readLevel js = .ok l →
    (∀ n ∈ l, NodeStandard n) ∧ InPlace l
  | [], l, h => by cases h; exact ⟨by simp, List.Pairwise.nil⟩
  | j :: js, l, h => by
    rw [readLevel] at h
    cases hl : readLevel js with
    | error e => rw [hl] at h; cases h
    | ok l' =>
      rw [hl] at h
      simp only [Except.bind] at h
      cases hn : readBNode j with
      | error e => rw [hn] at h; cases h
      | ok n =>
        rw [hn] at h
        cases h
        obtain ⟨h1, h2⟩ := readLevel_standard js l' hl
        refine ⟨fun x hx => ?_, insert_inPlace l' h2⟩
        rcases (insert_mem l').1 hx with rfl | hx
        · exact readBNode_standard hn
        · exact h1 x hx

theorem readLevels_standard : ∀ (js : List Json) (ls : List (List (Bumps.Node Digest))), readLevels js = .ok ls →
    (∀ l ∈ ls, (∀ n ∈ l, NodeStandard n) ∧ InPlace l) ∧ ls.length = js.length
  | [], ls, h => by cases h; exact ⟨by simp, rfl⟩
  | k :: ks, ls, h => by
    rw [readLevels] at h
    cases hl : readLevel (Json.items k) with
    | error e => rw [hl] at h; cases h
    | ok l =>
      rw [hl] at h
      simp only [Except.bind] at h
      cases hr : readLevels ks with
      | error e => rw [hr] at h; cases h
      | ok ls' =>
        rw [hr] at h
        cases h
        obtain ⟨h1, h2⟩ := readLevels_standard ks ls' hr
        refine ⟨fun x hx => ?_, by simp [h2]⟩
        rcases List.mem_cons.1 hx with rfl | hx
        · exact readLevel_standard _ _ hl
        · exact h1 x hx

/-! ### BUMPs -/

theorem bumpOfJson_obj (n : Int) (p : Json) : bumpOfJson (.obj [("blockHeight".toList, .int n), ("path".toList, p)]) =
    if n < 0 then .error .thrown else (readPaths p).map fun path => ⟨(n % 2 ^ 64).toNat, path⟩ := rfl

/-- **C117**: a BUMP can be written as JSON just if all its nodes are valid. -/
theorem C117_written_iff (b : Bumps.Bump Digest) : (∃ j, bumpToJson b = .ok j) ↔ ∀ l ∈ b.path, ∀ n ∈ l, n.valid = true := by
  rw [← writeLevels_ok]
  unfold bumpToJson
  cases writeLevels b.path with
  | error e => simp [Except.map]
  | ok js => simp [Except.map]

/-- **C117**, for BUMPs with at least one level, the flags of which are the three that there are, and the levels of which are in
order: what is written as JSON is read back. -/
theorem C117_roundtrip_partial (b : Bumps.Bump Digest) (h : BumpStandard b) : ∃ j, bumpToJson b = .ok j ∧ bumpOfJson j = .ok b := by
  obtain ⟨js, hjs⟩ := (writeLevels_ok b.path).2 fun l hl n hn => standard_valid (h.nodes l hl n hn)
  refine ⟨_, by unfold bumpToJson; rw [hjs]; rfl, ?_⟩
  obtain ⟨h1, h2⟩ := readLevels_write b.path js h.nodes h.order hjs
  have hp : readPaths (.arr js) = .ok b.path := by
    cases js with
    | nil => exact absurd (List.length_eq_zero_iff.1 h2.symm) h.path
    | cons j js => exact h1
  have hb := h.height
  rw [bumpOfJson_obj, if_neg (by omega), hp]
  have e : ((b.height : Int) % 2 ^ 64).toNat = b.height := by omega
  simp only [Except.map, e]

/-- **C117**: what is read from JSON is valid and can be written: all its nodes are standard, and in order. -/
theorem C117_read_standard (j : Json) (b : Bumps.Bump Digest) (h : bumpOfJson j = .ok b) : BumpStandard b ∧ b.valid = true := by
  have hs : BumpStandard b := by
    unfold bumpOfJson at h
    split at h
    · rename_i p ht _ _
      split at h
      · cases h
      · cases hp : readPaths p with
        | error e => rw [hp] at h; cases h
        | ok path =>
          rw [hp] at h
          simp only [Except.map, Except.ok.injEq] at h
          subst h
          unfold readPaths at hp
          split at hp
          · cases hp
          · rename_i hne _
            obtain ⟨h1, h2⟩ := readLevels_standard _ _ hp
            refine ⟨?_, ?_, fun l hl => (h1 l hl).1, fun l hl => (h1 l hl).2⟩
            · show (ht % 2 ^ 64).toNat < 2 ^ 64
              omega
            · rintro rfl
              exact hne (List.length_eq_zero_iff.1 h2.symm)
          · cases hp
    · rename_i p _ _
      cases hp : readPaths p with
      | error e => rw [hp] at h; cases h
      | ok path => rw [hp] at h; cases h
    · cases h
  refine ⟨hs, ?_⟩
  unfold Bumps.Bump.valid
  rw [Bool.and_eq_true, bne_iff_ne, List.all_eq_true]
  refine ⟨fun h => hs.path (List.length_eq_zero_iff.1 h), fun l hl => ?_⟩
  rw [List.all_eq_true]
  exact fun n hn => standard_valid (hs.nodes l hl n hn)

theorem insert_comm' {a b : Bumps.Node Digest} (hab : a.offset ≠ b.offset) : ∀ l : List (Bumps.Node Digest),
    Bumps.insert a (Bumps.insert b l) = Bumps.insert b (Bumps.insert a l)
  | [] => by
    simp only [Bumps.insert]
    split <;> split <;> first | rfl | omega
  | m :: l => by
    simp only [Bumps.insert]
    by_cases h1 : b.offset ≤ m.offset <;> by_cases h2 : a.offset ≤ m.offset
    · simp only [h1, h2, if_true, Bumps.insert]
      by_cases h3 : a.offset ≤ b.offset
      · rw [if_pos h3, if_neg (by omega)]
      · rw [if_neg h3, if_pos (by omega)]
    · simp only [h1, h2, if_true, if_false, Bumps.insert]
      rw [if_neg (by omega)]
    · simp only [h1, h2, if_true, if_false, Bumps.insert]
      rw [if_neg (by omega)]
    · simp only [h1, h2, if_false, Bumps.insert]
      rw [insert_comm' hab l]

theorem insert_strict {n : Bumps.Node Digest} : ∀ l : List (Bumps.Node Digest), (Bumps.insert n l).Pairwise (fun a b => a.offset < b.offset) →
    l.Pairwise (fun a b => a.offset < b.offset) ∧ ∀ x ∈ l, x.offset ≠ n.offset
  | [], _ => ⟨List.Pairwise.nil, by simp⟩
  | m :: l, h => by
    rw [Bumps.insert] at h
    split at h
    · obtain ⟨h1, h2⟩ := List.pairwise_cons.1 h
      exact ⟨h2, fun x hx => by have := h1 x hx; omega⟩
    · obtain ⟨h1, h2⟩ := List.pairwise_cons.1 h
      obtain ⟨h3, h4⟩ := insert_strict l h2
      refine ⟨List.pairwise_cons.2 ⟨fun x hx => h1 x ((insert_mem l).2 (.inr hx)), h3⟩, fun x hx => ?_⟩
      rcases List.mem_cons.1 hx with rfl | hx
      · have := h1 n ((insert_mem l).2 (.inl rfl))
        omega
      · exact h4 x hx

theorem readLevel_perm {l l' : List Json} (hp : l.Perm l') : ∀ r, readLevel l = .ok r → r.Pairwise (fun a b => a.offset < b.offset) →
    readLevel l' = .ok r := by
  induction hp with
  | nil => intro r h _; exact h
  | cons j _ ih =>
    rename_i l1 l2 _
    intro r h hs
    rw [readLevel] at h ⊢
    cases hl : readLevel l1 with
    | error e => rw [hl] at h; cases h
    | ok r1 =>
      rw [hl] at h
      simp only [Except.bind] at h
      cases hn : readBNode j with
      | error e => rw [hn] at h; cases h
      | ok n =>
        rw [hn] at h
        cases h
        rw [ih r1 hl (insert_strict r1 hs).1]
        rfl
  | swap j k l =>
    intro r h hs
    rw [readLevel, readLevel] at h
    rw [readLevel, readLevel]
    cases hl : readLevel l with
    | error e => rw [hl] at h; cases h
    | ok r1 =>
      rw [hl] at h
      simp only [Except.bind] at h ⊢
      cases hj : readBNode j with
      | error e => rw [hj] at h; cases h
      | ok a =>
        rw [hj] at h
        simp only [Except.map] at h ⊢
        cases hk : readBNode k with
        | error e => rw [hk] at h; cases h
        | ok b =>
          rw [hk] at h
          cases h
          have := (insert_strict _ hs).2 a ((insert_mem r1).2 (.inl rfl))
          simp only [insert_comm' this r1]
  | trans _ _ ih1 ih2 =>
    intro r h hs
    exact ih2 r (ih1 r h hs) hs

/-- **C117**: if no two nodes of a level have the same position, the order in which a level lists them does not matter. -/
theorem C117_order (height : Json) (ls ls' : List (List Json)) (hp : List.Forall₂ List.Perm ls ls') (b : Bumps.Bump Digest)
    (h : bumpOfJson (.obj [("blockHeight".toList, height), ("path".toList, .arr (ls.map .arr))]) = .ok b)
    (hs : ∀ l ∈ b.path, l.Pairwise fun x y => x.offset < y.offset) :
    bumpOfJson (.obj [("blockHeight".toList, height), ("path".toList, .arr (ls'.map .arr))]) = .ok b := by
  have key : ∀ (ls ls' : List (List Json)), List.Forall₂ List.Perm ls ls' → ∀ path, readLevels (ls.map .arr) = .ok path →
      (∀ l ∈ path, l.Pairwise fun x y => x.offset < y.offset) → readLevels (ls'.map .arr) = .ok path := by
    intro ls ls' hp
    induction hp with
    | nil => intro path h _; exact h
    | cons h1 _ ih =>
      rename_i a a' l1 l2 _
      intro path h hs
      rw [List.map_cons, readLevels] at h ⊢
      simp only [Json.items] at h ⊢
      cases hl : readLevel a with
      | error e => rw [hl] at h; cases h
      | ok r =>
        rw [hl] at h
        simp only [Except.bind] at h
        cases hr : readLevels (l1.map .arr) with
        | error e => rw [hr] at h; cases h
        | ok rs =>
          rw [hr] at h
          cases h
          rw [readLevel_perm h1 r hl (hs r (by simp)), ih rs hr fun l hl => hs l (by simp [hl])]
          rfl
  have hpaths : ∀ path, readPaths (.arr (ls.map .arr)) = .ok path → (∀ l ∈ path, l.Pairwise fun x y => x.offset < y.offset) →
      readPaths (.arr (ls'.map .arr)) = .ok path := by
    intro path h1 h2
    cases hp with
    | nil => exact h1
    | cons h3 h4 => exact key _ _ (.cons h3 h4) path h1 h2
  cases height with
  | int n =>
    rw [bumpOfJson_obj] at h ⊢
    split at h
    · cases h
    · rename_i hn
      rw [if_neg hn]
      cases hpa : readPaths (.arr (ls.map .arr)) with
      | error e => rw [hpa] at h; cases h
      | ok path =>
        rw [hpa] at h
        cases h
        rw [hpaths path hpa hs]
        rfl
  | real =>
    change (readPaths (.arr (ls.map .arr))).bind _ = _ at h
    cases hpa : readPaths (.arr (ls.map .arr)) with
    | error e => rw [hpa] at h; cases h
    | ok path => rw [hpa] at h; cases h
  | _ => cases h

/-! ### What goes wrong -/

/-- A BUMP with a node the flag of which is none of the three, as bytes can have it. -/
def strange : Bumps.Bump Digest := ⟨1, [[⟨0, 3, some 5⟩, ⟨1, 2, some 6⟩]]⟩

/-- **C117** fails: a valid BUMP with a flag that is none of the three is changed by writing and reading it. -/
theorem C117_false_flag : ∃ (b b' : Bumps.Bump Digest) (j : Json), b.valid = true ∧ bumpToJson b = .ok j ∧ bumpOfJson j = .ok b' ∧
    b' ≠ b := by
  have h1 : bumpToJson strange = bumpToJson ⟨1, [[⟨0, 0, some 5⟩, ⟨1, 2, some 6⟩]]⟩ := rfl
  obtain ⟨j, h2, h3⟩ := C117_roundtrip_partial ⟨1, [[⟨0, 0, some 5⟩, ⟨1, 2, some 6⟩]]⟩
    ⟨by decide, by simp, by simp [NodeStandard, Bumps.intermediate, Bumps.client], by simp [InPlace]⟩
  exact ⟨strange, _, j, by decide, h1.trans h2, h3, by decide⟩

/-- **C117** fails: a BUMP with no levels is written, but cannot be read. -/
theorem C117_false_empty (height : Nat) : ∃ j, bumpToJson ⟨height, []⟩ = .ok j ∧ bumpOfJson j = .error .thrown := by
  refine ⟨_, rfl, ?_⟩
  simp [bumpOfJson, Json.get, readPaths, Except.map]

/-- **C117** fails: a node with neither a hash nor a mark that it is a duplicate has undefined behaviour instead of being refused. -/
theorem C117_false_missing (o : Int) : readBNode (.obj [("offset".toList, .int o)]) = .error .ub := by
  simp [readBNode, Json.isObj, Json.get, toU64, flagOf, Except.bind]

/-- **C117** fails: a negative position is accepted, as another one. -/
theorem C117_false_negative (s : List Char) :
    readBNode (.obj [("offset".toList, .int (-1)), ("hash".toList, .str s)]) = .ok ⟨2 ^ 64 - 1, 0, some (readReverseHex s)⟩ := by
  simp [readBNode, Json.isObj, Json.get, toU64, flagOf, Except.bind, Except.map]

-- a BUMP with all three flags
example : BumpStandard ⟨7, [[⟨2, 2, some 5⟩, ⟨3, 1, none⟩], [⟨0, 0, some 9⟩]]⟩ :=
  ⟨by decide, by simp, by simp [NodeStandard, Bumps.intermediate, Bumps.client, Bumps.duplicate], by simp [InPlace]⟩

/-! ### BEEF -/

theorem writeId_inj {a b : Digest} (h : writeId a = writeId b) : a = b := by
  rw [← readReverse_write a, ← readReverse_write b, h]

theorem int_nat_inj {a b : Nat} (h : Json.int (a : Int) = Json.int (b : Int)) : a = b := by
  simp only [Json.int.injEq] at h
  omega

theorem inputJson_inj {a b : Input} (h : inputJson a = inputJson b) : a = b := by
  unfold inputJson at h
  simp only [Json.obj.injEq, List.cons.injEq, Prod.mk.injEq, true_and, Json.str.injEq, and_true] at h
  obtain ⟨⟨h1, h2⟩, h3, h4⟩ := h
  obtain ⟨⟨d, i⟩, s, q⟩ := a
  obtain ⟨⟨d', i'⟩, s', q'⟩ := b
  have e1 := writeId_inj (List.append_cancel_left h1)
  have e2 := BitVec.eq_of_toNat_eq (int_nat_inj h2)
  have e3 := hexWrite_inj h3
  have e4 := BitVec.eq_of_toNat_eq (int_nat_inj h4)
  simp only at e1 e2 e3 e4
  rw [e1, e2, e3, e4]

theorem outputJson_inj {a b : Output} (h : outputJson a = outputJson b) : a = b := by
  unfold outputJson at h
  simp only [Json.obj.injEq, List.cons.injEq, Prod.mk.injEq, true_and, Json.str.injEq, and_true] at h
  obtain ⟨v, s⟩ := a
  obtain ⟨v', s'⟩ := b
  have e1 := BitVec.eq_of_toNat_eq (int_nat_inj h.1)
  have e2 := hexWrite_inj h.2
  simp only at e1 e2
  rw [e1, e2]

theorem map_inj {α β : Type} {f : α → β} (hf : ∀ a b, f a = f b → a = b) : ∀ {l l' : List α}, l.map f = l'.map f → l = l'
  | [], [], _ => rfl
  | [], _ :: _, h => by simp at h
  | _ :: _, [], h => by simp at h
  | a :: l, b :: l', h => by
    simp only [List.map_cons, List.cons.injEq] at h
    rw [hf a b h.1, map_inj hf h.2]

theorem btxJson_inj {a b : BTx} (h : btxJson a = btxJson b) : a = b := by
  unfold btxJson at h
  simp only [Json.obj.injEq, List.cons_append, List.nil_append, List.cons.injEq, Prod.mk.injEq, true_and, Json.arr.injEq] at h
  obtain ⟨h1, h2, h3, h4, h5⟩ := h
  obtain ⟨⟨v, i, o, l⟩, k⟩ := a
  obtain ⟨⟨v', i', o', l'⟩, k'⟩ := b
  have e1 := BitVec.eq_of_toNat_eq (int_nat_inj h1)
  have e2 := map_inj (fun _ _ => inputJson_inj) h2
  have e3 := map_inj (fun _ _ => outputJson_inj) h3
  have e4 := BitVec.eq_of_toNat_eq (int_nat_inj h4)
  simp only at e1 e2 e3 e4
  subst e1 e2 e3 e4
  cases k with
  | none =>
    cases k' with
    | none => rfl
    | some k' => simp at h5
  | some k =>
    cases k' with
    | none => simp at h5
    | some k' =>
      simp only [List.cons.injEq, Prod.mk.injEq, true_and, and_true] at h5
      rw [int_nat_inj h5]

theorem bumpToJson_inj {a b : Bumps.Bump Digest} (ha : BumpStandard a) (hb : BumpStandard b) {j : Json} (h1 : bumpToJson a = .ok j)
    (h2 : bumpToJson b = .ok j) : a = b := by
  obtain ⟨j1, g1, g2⟩ := C117_roundtrip_partial a ha
  obtain ⟨j2, g3, g4⟩ := C117_roundtrip_partial b hb
  rw [h1, Except.ok.injEq] at g1
  rw [h2, Except.ok.injEq] at g3
  subst g1 g3
  rw [g2, Except.ok.injEq] at g4
  exact g4

theorem writeBumps_inj : ∀ (a b : List (Bumps.Bump Digest)) (js : List Json), (∀ x ∈ a, BumpStandard x) → (∀ x ∈ b, BumpStandard x) →
    writeBumps a = .ok js → writeBumps b = .ok js → a = b := by
  have cons : ∀ (x : Bumps.Bump Digest) (l : List (Bumps.Bump Digest)) (js : List Json), writeBumps (x :: l) = .ok js →
      ∃ j js', bumpToJson x = .ok j ∧ writeBumps l = .ok js' ∧ js = j :: js' := by
    intro x l js h
    rw [writeBumps] at h
    cases hx : bumpToJson x with
    | error e => rw [hx] at h; cases h
    | ok j =>
      rw [hx] at h
      simp only [Except.bind] at h
      cases hl : writeBumps l with
      | error e => rw [hl] at h; cases h
      | ok js' => rw [hl] at h; cases h; exact ⟨j, js', rfl, rfl, rfl⟩
  intro a
  induction a with
  | nil =>
    intro b js _ _ h1 h2
    cases h1
    cases b with
    | nil => rfl
    | cons y b =>
      obtain ⟨_, _, _, _, h⟩ := cons _ _ _ h2
      cases h
  | cons x a ih =>
    intro b js ha hb h1 h2
    obtain ⟨j, js', g1, g2, rfl⟩ := cons _ _ _ h1
    cases b with
    | nil => cases h2
    | cons y b =>
      obtain ⟨j', js'', g3, g4, g5⟩ := cons _ _ _ h2
      cases g5
      rw [bumpToJson_inj (ha x (by simp)) (hb y (by simp)) g1 g3,
        ih b _ (fun z hz => ha z (by simp [hz])) (fun z hz => hb z (by simp [hz])) g2 g4]

theorem writeBumps_ok : ∀ l : List (Bumps.Bump Digest), (∃ js, writeBumps l = .ok js) ↔ ∀ b ∈ l, ∃ j, bumpToJson b = .ok j
  | [] => by simp [writeBumps]
  | b :: l => by
    rw [List.forall_mem_cons, ← writeBumps_ok l, writeBumps]
    cases bumpToJson b with
    | error e => simp [Except.bind]
    | ok j =>
      cases writeBumps l with
      | error e => simp [Except.bind, Except.map]
      | ok js => simp [Except.bind, Except.map]

/-- **C118**: a BEEF can be written as JSON just if all nodes of all its BUMPs are valid. -/
theorem C118_written_iff (b : Beef) : (∃ j, b.toJson = .ok j) ↔ ∀ x ∈ b.bumps, ∀ l ∈ x.path, ∀ n ∈ l, n.valid = true := by
  have : (∃ j, b.toJson = .ok j) ↔ ∃ js, writeBumps b.bumps = .ok js := by
    unfold Beef.toJson
    cases writeBumps b.bumps with
    | error e => simp [Except.map]
    | ok js => simp [Except.map]
  rw [this, writeBumps_ok]
  exact forall₂_congr fun x _ => C117_written_iff x

/-- **C118**, for BEEFs the BUMPs of which are standard: the JSON determines the BEEF, so that nothing is lost in it. -/
theorem C118_injective_partial (a b : Beef) (ha : ∀ x ∈ a.bumps, BumpStandard x) (hb : ∀ x ∈ b.bumps, BumpStandard x) (j : Json)
    (h1 : a.toJson = .ok j) (h2 : b.toJson = .ok j) : a = b := by
  unfold Beef.toJson at h1 h2
  cases g1 : writeBumps a.bumps with
  | error e => rw [g1] at h1; cases h1
  | ok j1 =>
    cases g2 : writeBumps b.bumps with
    | error e => rw [g2] at h2; cases h2
    | ok j2 =>
      rw [g1] at h1
      rw [g2] at h2
      simp only [Except.map, Except.ok.injEq] at h1 h2
      subst h1
      simp only [Json.obj.injEq, List.cons.injEq, Prod.mk.injEq, true_and, Json.arr.injEq, and_true] at h2
      obtain ⟨e1, e2, e3⟩ := h2
      subst e2
      obtain ⟨v, bs, ts⟩ := a
      obtain ⟨v', bs', ts'⟩ := b
      have f1 := BitVec.eq_of_toNat_eq (int_nat_inj e1)
      have f2 := writeBumps_inj _ _ _ ha hb g1 g2
      have f3 := map_inj (fun _ _ => btxJson_inj) e3
      simp only at f1 f2 f3
      rw [f1, f2, f3]

/-- **C118** fails: valid BEEFs that differ in the flag of a node, and so in their bytes, have the same JSON. -/
theorem C118_false_flag : ∃ (a b : Beef) (j : Json), a.toJson = .ok j ∧ b.toJson = .ok j ∧ (∀ x ∈ a.bumps, x.valid = true) ∧
    (∀ x ∈ b.bumps, x.valid = true) ∧ a.write ≠ b.write := by
  have h1 : bumpToJson strange = bumpToJson ⟨1, [[⟨0, 0, some 5⟩, ⟨1, 2, some 6⟩]]⟩ := rfl
  obtain ⟨j, h2⟩ := (C118_written_iff ⟨1, [strange], []⟩).2 (by simp [strange, Bumps.Node.valid, Bumps.duplicate])
  refine ⟨⟨1, [strange], []⟩, ⟨1, [⟨1, [[⟨0, 0, some 5⟩, ⟨1, 2, some 6⟩]]⟩], []⟩, j, h2, ?_, by decide, by decide, by decide +kernel⟩
  rw [← h2]
  rfl

-- a BEEF that meets the hypothesis
example : ∀ x ∈ exampleBeef.bumps, BumpStandard x := by
  intro x hx
  simp only [exampleBeef, List.mem_cons, List.not_mem_nil, or_false] at hx
  subst hx
  exact ⟨by decide, by simp [Bumps.sampleBump], by simp [Bumps.sampleBump, NodeStandard, Bumps.intermediate, Bumps.client, Bumps.duplicate],
    by simp [Bumps.sampleBump, InPlace]⟩

end Verif.Pay
