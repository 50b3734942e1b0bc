import Verif.SPV.DatabaseProps
import Verif.Merkle.SumProps

/-
C54: what the database in memory says about confirmed transactions, after any history, and
C100: what it says about those that are not confirmed.
-/

namespace Verif.SPV

open Verif Verif.Merkle Verif.Chain

namespace Spec

open Merkle.Spec

/-- The path leads from the transaction id to the Merkle root. -/
def Proves (H : Bytes → Digest) (t : Digest) (p : Path Digest) (root : Digest) : Prop :=
  LeadsTo (joined H) t p root 0

/-- The root that a change brings proofs for. -/
def rootOf (H : Bytes → Digest) : Op → Option Digest
  | .dual p => some p.root
  | .txPath t p => some (rootFrom (joined H) p.index (txId H t) p.digests)
  | _ => none

/-- The paths brought for a block of the chain are those a block gives (`depth` says how long the paths of
the block with a given Merkle root are), and are among `l`. -/
def Proper (H : Bytes → Digest) (l : List (Digest × Path Digest)) (depth : Digest → Nat) (chain : List Header) : Op → Prop
  | .dual p => (∃ g ∈ chain, g.merkleRoot = p.root) →
      ∀ e ∈ p.paths, e ∈ l ∧ Regular (joined H) (depth p.root) p.root e.1 e.2
  | .txPath t p => ∀ g ∈ chain, g.merkleRoot = rootFrom (joined H) p.index (txId H t) p.digests →
      (txId H t, p) ∈ l ∧ Regular (joined H) (depth g.merkleRoot) g.merkleRoot (txId H t) p
  | _ => True

/-- A header is not removed with `remove_header` once there are proofs for it. -/
def Unproved (H : Bytes → Digest) (chain : List Header) (proved : List Digest) : Op → Prop
  | .removeHeight n => n + 1 = chain.length → ∀ g, chain.getLast? = some g → g.merkleRoot ∉ proved
  | .removeHash d => ∀ g, chain.getLast? = some g → headerHash H g = d → g.merkleRoot ∉ proved
  | _ => True

/-- A history in which headers come in order, paths are proper, and no header with proofs is removed
by `remove_header`; headers with proofs may be replaced. -/
def CarefulRun (H : Bytes → Digest) (l : List (Digest × Path Digest)) (depth : Digest → Nat) :
    List Header → List Digest → List Op → Prop
  | _, _, [] => True
  | chain, proved, o :: os => Orderly H chain o ∧ Proper H l depth chain o ∧ Unproved H chain proved o ∧
      CarefulRun H l depth (chainStep H chain o) ((rootOf H o).toList ++ proved) os

end Spec

open Spec Merkle.Spec

theorem CarefulRun.orderly {H : Bytes → Digest} {l : List (Digest × Path Digest)} {depth : Digest → Nat} :
    ∀ {os : List Op} {chain : List Header} {proved : List Digest}, CarefulRun H l depth chain proved os → OrderlyRun H chain os
  | [], _, _, _ => trivial
  | _ :: _, _, _, h => ⟨h.1, CarefulRun.orderly h.2.2.2⟩

/-- What a path says that the confirmation test uses. -/
theorem Regular.proves {H : Bytes → Digest} {k : Nat} {r t : Digest} {p : Path Digest} (h : Regular (joined H) k r t p) :
    Proves H t p r := by
  obtain ⟨h1, h2, h3, -⟩ := h
  exact ⟨h3, by rw [h1]; exact Nat.div_eq_of_lt h2⟩

theorem root_ne_zero {H : Bytes → Digest} {g : Header} (h : headerValid H g = true) : g.merkleRoot ≠ 0 := by
  unfold headerValid at h
  simp only [Bool.and_eq_true, bne_iff_ne] at h
  exact h.2.1.2

theorem sum_paths (H : Bytes → Digest) (k : Nat) (r : Digest) (l a b : List (Digest × Path Digest)) (hk : k ≤ 31)
    (hz : r ≠ 0) (hc : NoCollisions (joined H) l)
    (ha : ∀ e ∈ a, e ∈ l ∧ Regular (joined H) k r e.1 e.2) (hb : ∀ e ∈ b, e ∈ l ∧ Regular (joined H) k r e.1 e.2) :
    ∃ c, Dual.add (joined H) BitVec.toNat 0 ⟨a, r⟩ ⟨b, r⟩ = .ok c ∧ (∀ e ∈ c.paths, e ∈ a ∨ e ∈ b) ∧
      ∀ t, t ∈ c.paths.map (·.1) ↔ t ∈ a.map (·.1) ∨ t ∈ b.map (·.1) := by
  by_cases he : a = []
  · subst he
    refine ⟨⟨b, r⟩, ?_, by simp, by simp⟩
    simp [Dual.add, Dual.valid, bind, Except.bind]
  · obtain ⟨c, h1, -, -, h4, h5⟩ := C99_sum_partial (joined H) BitVec.toNat 0 k ⟨a, r⟩ ⟨b, r⟩ hk rfl hz he
      (fun e h => (ha e h).2) (fun e h => (hb e h).2) (by
        intro e he f hf
        have : ∀ x ∈ a ++ b, x ∈ l := by
          intro x hx
          rcases List.mem_append.mp hx with hx | hx
          · exact (ha x hx).1
          · exact (hb x hx).1
        exact hc e (this e he) f (this f hf))
    exact ⟨c, h1, h4, h5⟩

/-- The invariant: the paths of each entry prove their leaves, and what a transaction is filed under is an
entry of the chain that has a path for it. -/
structure Proven (H : Bytes → Digest) (l : List (Digest × Path Digest)) (depth : Digest → Nat) (s : Mem)
    (chain : List Header) (proved : List Digest) : Prop where
  valid : ∀ g ∈ chain, headerValid H g = true
  paths : ∀ n r g, findHeight s.byHeight n = some r → chain[n]? = some g →
    ((s.heap r).paths ≠ [] → g.merkleRoot ∈ proved) ∧
    ∀ e ∈ (s.heap r).paths, e ∈ l ∧ Regular (joined H) (depth g.merkleRoot) g.merkleRoot e.1 e.2
  filed : ∀ t r, s.byTxid t = some r → ∃ n, findHeight s.byHeight n = some r ∧ t ∈ (s.heap r).paths.map (·.1)
  stored : ∀ t x, s.transactions t = some x → txId H x = t

theorem Holds.at {H : Bytes → Digest} {s : Mem} {rs : List Nat} {chain : List Header} (h : Holds H s rs chain) (n : Nat) :
    findHeight s.byHeight n = rs[n]? := by
  rw [h.heights, find_number, if_pos (Nat.zero_le _), Nat.sub_zero]

theorem addEntry_paths (H : Bytes → Digest) (s : Mem) (n : Nat) (x : Header) (r : Nat) :
    ((addEntry H s n x).heap r).paths = if r = s.next then [] else (s.heap r).paths := by
  unfold addEntry
  simp only
  cases findHeight (putHeight n s.next s.byHeight) (n + 1) with
  | none =>
    by_cases h : r = s.next <;> simp [h]
  | some q =>
    by_cases h1 : r = q
    · subst h1
      by_cases h : r = s.next <;> simp [h]
    · by_cases h : r = s.next
      · subst h; simp [h1]
      · simp [h1, h]

variable {H : Bytes → Digest} {l : List (Digest × Path Digest)} {depth : Digest → Nat}

theorem Proven.drop {s : Mem} {rs : List Nat} {chain : List Header} {proved : List Digest}
    (h : Holds H s rs chain) (hp : Proven H l depth s chain proved) (n : Nat) :
    Proven H l depth (dropFrom H s n) (chain.take n) proved := by
  obtain ⟨h1, h2, h3, h4, h5, h6⟩ := dropEntries H (s.byHeight.filter fun e => n ≤ e.1) s
  have hdrop : (s.byHeight.filter fun e => n ≤ e.1).map (·.2) = rs.drop n := by
    rw [h.heights, filter_from]; rfl
  rw [hdrop] at h6
  have hh := (h.drop n).1
  have hheap : (dropFrom H s n).heap = s.heap := h1
  constructor
  · intro g hg; exact hp.valid g (List.mem_of_mem_take hg)
  · intro m r g hr hg
    rw [hh.at] at hr
    obtain ⟨hm, hr⟩ := take_some.mp hr
    obtain ⟨-, hg⟩ := take_some.mp hg
    rw [hheap]
    exact hp.paths m r g (by rw [h.at]; exact hr) hg
  · intro t r ht
    obtain ⟨ht, hno⟩ := (h6 t r).mp ht
    obtain ⟨m, hm, hk⟩ := hp.filed t r ht
    rw [h.at] at hm
    refine ⟨m, ?_, by rw [hheap]; exact hk⟩
    rw [hh.at, take_some]
    refine ⟨?_, hm⟩
    apply Classical.byContradiction
    intro hlt
    exact hno r (mem_drop.mpr ⟨m, by omega, hm⟩) hk
  · intro t x ht
    refine hp.stored t x ?_
    rw [← h3]
    exact ht

theorem Proven.add {s : Mem} {rs : List Nat} {chain : List Header} {proved : List Digest}
    (h : Holds H s rs chain) (hp : Proven H l depth s chain proved)
    (hl : s.latest = none ∨ s.latest = rs.getLast?) (x : Header) (hv : headerValid H x = true)
    (hx : ∀ g ∈ chain, headerHash H g ≠ headerHash H x ∧ g.merkleRoot ≠ x.merkleRoot) :
    Proven H l depth (addEntry H s chain.length x) (chain ++ [x]) proved := by
  have hh := (h.add hl x hx).1
  have hnew : ∀ r ∈ rs, r ≠ s.next := fun r hr he => by have := h.old r hr; omega
  constructor
  · intro g hg
    rcases List.mem_append.mp hg with hg | hg
    · exact hp.valid g hg
    · rw [List.mem_singleton.mp hg]; exact hv
  · intro n r g hr hg
    rw [hh.at] at hr
    rw [addEntry_paths]
    rcases append_some.mp hr with hr | ⟨-, rfl⟩
    · rw [if_neg (hnew r (List.mem_of_getElem? hr))]
      have hlt : n < rs.length := (List.getElem?_eq_some_iff.mp hr).1
      refine hp.paths n r g (by rw [h.at]; exact hr) ?_
      rcases append_some.mp hg with hg | ⟨hn, -⟩
      · exact hg
      · rw [h.len] at hlt; omega
    · simp
  · intro t r ht
    obtain ⟨n, hn, hk⟩ := hp.filed t r ht
    rw [h.at] at hn
    refine ⟨n, by rw [hh.at]; exact append_some.mpr (.inl hn), ?_⟩
    rw [addEntry_paths, if_neg (hnew r (List.mem_of_getElem? hn))]
    exact hk
  · exact hp.stored

theorem insertHeader_proven {s : Mem} {chain : List Header} {proved : List Digest} (hs : Tracks H s chain)
    (hp : Proven H l depth s chain proved) (n : Nat) (x : Header) (ho : Orderly H chain (.header n x)) :
    Proven H l depth (insertHeader H s n x).1 (chainStep H chain (.header n x)) proved := by
  obtain ⟨rs, h, hl⟩ := hs
  unfold insertHeader
  simp only [chainStep]
  cases hv : headerValid H x with
  | false => simp only [Bool.not_false, if_true, true_or]; exact hp
  | true =>
    obtain ⟨hn, hx⟩ := ho hv
    simp only [Bool.not_true, Bool.false_eq_true, if_false, reduceCtorEq, false_or]
    rw [h.at]
    cases hr : rs[n]? with
    | some r =>
      obtain ⟨g, hg⟩ := h.partner hr
      obtain ⟨e1, e2, e3⟩ := h.entry n r g hr hg
      simp only [e2]
      rw [hg]
      by_cases hgx : g = x
      · subst hgx
        simp only [if_true]
        exact hp
      · rw [if_neg hgx, if_neg (by simpa using hgx)]
        obtain ⟨hd, hd1, hd2⟩ := h.drop n
        have hlt := (List.getElem?_eq_some_iff.mp hg).1
        have hlen : (chain.take n).length = n := by rw [List.length_take]; omega
        have := (hp.drop h n).add hd (.inl hd1) x hv hx
        rwa [hlen] at this
    | none =>
      have hlen : n = chain.length := by
        have := List.getElem?_eq_none_iff.mp hr
        rw [h.len] at this; omega
      have hnone : chain[n]? = none := List.getElem?_eq_none (by omega)
      rw [hnone, if_neg (by simp)]
      simp only
      subst hlen
      rw [List.take_length] at hx ⊢
      exact hp.add h (.inr hl) x hv hx

theorem Proven.removeLast {s : Mem} {rs : List Nat} {chain : List Header} {proved : List Digest} {r : Nat} {g : Header}
    (h : Holds H s (rs ++ [r]) (chain ++ [g])) (hp : Proven H l depth s (chain ++ [g]) proved)
    (hno : g.merkleRoot ∉ proved) : Proven H l depth (removeLatest H s r) chain proved := by
  have hh := h.removeLast.1
  have hlen : rs.length = chain.length := by have := h.len; simp at this; exact this
  constructor
  · intro x hx; exact hp.valid x (List.mem_append_left _ hx)
  · intro n q x hq hx
    rw [hh.at] at hq
    exact hp.paths n q x (by rw [h.at]; exact append_some.mpr (.inl hq)) (append_some.mpr (.inl hx))
  · intro t q ht
    obtain ⟨n, hn, hk⟩ := hp.filed t q ht
    rw [h.at] at hn
    refine ⟨n, ?_, hk⟩
    rw [hh.at]
    rcases append_some.mp hn with hn | ⟨he, rfl⟩
    · exact hn
    · have := (hp.paths n r g (by rw [h.at, he]; simp) (by rw [he, hlen]; simp)).1 (by
        intro he
        rw [he] at hk
        simp at hk)
      exact absurd this hno
  · exact hp.stored

/-- Adding the paths `b` to an entry of the chain. -/
theorem Proven.extend {s s' : Mem} {rs : List Nat} {chain : List Header} {proved : List Digest} {n r : Nat} {g : Header}
    (hp : Proven H l depth s chain proved) (h : Holds H s rs chain) (hr : rs[n]? = some r) (hg : chain[n]? = some g)
    (b : List (Digest × Path Digest)) (c : Dual Digest)
    (hb : ∀ e ∈ b, e ∈ l ∧ Regular (joined H) (depth g.merkleRoot) g.merkleRoot e.1 e.2)
    (hc : ∀ e ∈ c.paths, e ∈ (s.heap r).paths ∨ e ∈ b)
    (hk : ∀ t, t ∈ c.paths.map (·.1) ↔ t ∈ (s.heap r).paths.map (·.1) ∨ t ∈ b.map (·.1))
    (hh : s'.byHeight = s.byHeight)
    (he : s'.heap = fun q => if q = r then { s.heap r with paths := c.paths } else s.heap q)
    (ht : ∀ t, s'.byTxid t = s.byTxid t ∨ (t ∈ b.map (·.1) ∧ s'.byTxid t = some r))
    (hx : ∀ t x, s'.transactions t = some x → txId H x = t) :
    Proven H l depth s' chain (g.merkleRoot :: proved) := by
  constructor
  · exact hp.valid
  · intro m q x hq hx
    rw [hh] at hq
    have hold := hp.paths m q x hq hx
    rw [he]
    simp only
    by_cases hqr : q = r
    · subst hqr
      rw [h.at] at hq
      have hxg : x = g := by
        have e1 := (h.entry m q x hq hx).2.1
        have e2 := (h.entry n q g hr hg).2.1
        rw [← e1, e2]
      subst hxg
      simp only [if_true]
      refine ⟨fun _ => List.mem_cons_self .., ?_⟩
      intro e he
      rcases hc e he with he | he
      · exact hold.2 e he
      · exact hb e he
    · rw [if_neg hqr]
      exact ⟨fun hne => List.mem_cons_of_mem _ (hold.1 hne), hold.2⟩
  · intro t q hq
    have hcase : (∃ m, findHeight s.byHeight m = some q ∧ t ∈ (s.heap q).paths.map (·.1)) ∨
        (q = r ∧ t ∈ b.map (·.1)) := by
      rcases ht t with h1 | ⟨h1, h2⟩
      · exact .inl (hp.filed t q (by rw [← h1]; exact hq))
      · rw [h2, Option.some.injEq] at hq
        exact .inr ⟨hq.symm, h1⟩
    rw [hh, he]
    rcases hcase with ⟨m, hm, hmem⟩ | ⟨rfl, hmem⟩
    · refine ⟨m, hm, ?_⟩
      by_cases hqr : q = r
      · subst hqr; simp only [if_true]; exact (hk t).mpr (.inl hmem)
      · simp only [if_neg hqr]; exact hmem
    · refine ⟨n, by rw [h.at]; exact hr, ?_⟩
      simp only [if_true]
      exact (hk t).mpr (.inr hmem)
  · exact hx

theorem Proven.mono {s : Mem} {chain : List Header} {proved proved' : List Digest} (h : Proven H l depth s chain proved)
    (hs : ∀ d ∈ proved, d ∈ proved') : Proven H l depth s chain proved' :=
  ⟨h.valid, fun n r g hr hg => ⟨fun hne => hs _ ((h.paths n r g hr hg).1 hne), (h.paths n r g hr hg).2⟩, h.filed, h.stored⟩

theorem insertDual_ok {s : Mem} {p : Dual Digest} {out : Mem × Bool} (h : insertDual H s p = .ok out) :
    out = (s, false) ∨ ∃ r c, s.byRoot p.root = some r ∧
      Dual.add (joined H) BitVec.toNat 0 ⟨(s.heap r).paths, (s.heap r).header.merkleRoot⟩ p = .ok c ∧
      out = ({ s with
        heap := fun q => if q = r then { s.heap r with paths := c.paths } else s.heap q
        byTxid := fun t => if t ∈ p.paths.map (·.1) then some r else s.byTxid t
        pending := fun t => if t ∈ p.paths.map (·.1) ∧ (s.transactions t).isSome then false else s.pending t }, true) := by
  unfold insertDual at h
  simp only [bind, Except.bind] at h
  split at h
  · simp at h
  · split at h
    · exact .inl (Except.ok.inj h).symm
    · split at h
      · exact .inl (Except.ok.inj h).symm
      · rename_i r hr
        split at h
        · simp at h
        · rename_i c hc
          exact .inr ⟨r, c, hr, hc, (Except.ok.inj h).symm⟩

theorem insertTxPath_ok {s : Mem} {t : Tx} {p : Path Digest} {out : Mem × Bool} (h : insertTxPath H s t p = .ok out) :
    out = (s, false) ∨ ∃ r c, s.byRoot (rootFrom (joined H) p.index (txId H t) p.digests) = some r ∧
      Dual.add (joined H) BitVec.toNat 0 ⟨(s.heap r).paths, (s.heap r).header.merkleRoot⟩
        ⟨[(txId H t, p)], rootFrom (joined H) p.index (txId H t) p.digests⟩ = .ok c ∧ s.transactions (txId H t) = none ∧
      out = ({ s with
        heap := fun q => if q = r then { s.heap r with paths := c.paths } else s.heap q
        transactions := assign s.transactions (txId H t) (some t) }, true) := by
  unfold insertTxPath at h
  simp only [bind, Except.bind] at h
  split at h
  · exact .inl (Except.ok.inj h).symm
  · rename_i hn
    split at h
    · exact .inl (Except.ok.inj h).symm
    · rename_i r hr
      split at h
      · simp at h
      · rename_i c hc
        exact .inr ⟨r, c, hr, hc, hn, (Except.ok.inj h).symm⟩

theorem assign_stored {s : Mem} (h : ∀ t x, s.transactions t = some x → txId H x = t) (y : Tx) (t : Digest) (x : Tx)
    (hx : assign s.transactions (txId H y) (some y) t = some x) : txId H x = t := by
  unfold assign at hx
  split at hx
  · rename_i ht
    rw [Option.some.injEq] at hx
    rw [ht, ← hx]
  · exact h t x hx

theorem step_proven (hd : ∀ g, depth g ≤ 31) (hc : NoCollisions (joined H) l) {s s' : Mem} {chain : List Header}
    {proved : List Digest} (o : Op) (hs : Tracks H s chain) (hp : Proven H l depth s chain proved) (ho : Orderly H chain o)
    (hpr : Proper H l depth chain o) (hu : Unproved H chain proved o) (hstep : step H s o = .ok s') :
    Proven H l depth s' (chainStep H chain o) ((rootOf H o).toList ++ proved) := by
  cases o with
  | header n x =>
    simp only [step, Except.ok.injEq] at hstep
    subst hstep
    exact insertHeader_proven hs hp n x ho
  | removeHeight n =>
    obtain ⟨rs, h, hl⟩ := hs
    obtain ⟨m, g, rfl⟩ := snoc_of_ne (show chain ≠ [] from ho)
    obtain ⟨qs, r, rfl⟩ := snoc_of_ne (l := rs) (by intro he; have := h.len; rw [he] at this; simp at this)
    have hlen : qs.length = m.length := by have := h.len; simp at this; exact this
    simp only [step, removeHeight, hl, List.getLast?_concat, Except.ok.injEq] at hstep
    have e1 := (h.entry qs.length r g (by simp) (by rw [hlen]; simp)).1
    rw [e1] at hstep
    simp only [chainStep, List.length_append, List.length_singleton, Nat.add_right_cancel_iff, List.dropLast_concat]
    by_cases hn : qs.length = n
    · rw [if_pos hn] at hstep
      rw [if_pos (by omega)]
      subst hstep
      exact hp.removeLast h (hu (by simp; omega) g (by simp))
    · rw [if_neg hn] at hstep
      rw [if_neg (by omega)]
      subst hstep
      exact hp
  | removeHash d =>
    obtain ⟨rs, h, hl⟩ := hs
    obtain ⟨m, g, rfl⟩ := snoc_of_ne (show chain ≠ [] from ho)
    obtain ⟨qs, r, rfl⟩ := snoc_of_ne (l := rs) (by intro he; have := h.len; rw [he] at this; simp at this)
    have hlen : qs.length = m.length := by have := h.len; simp at this; exact this
    simp only [step, removeHash, hl, List.getLast?_concat, Except.ok.injEq] at hstep
    have e1 := (h.entry qs.length r g (by simp) (by rw [hlen]; simp)).2.1
    rw [e1] at hstep
    simp only [chainStep, List.getLast?_concat, Option.map_some, Option.some.injEq, List.dropLast_concat]
    by_cases hn : headerHash H g = d
    · rw [if_pos hn] at hstep
      rw [if_pos hn]
      subst hstep
      exact hp.removeLast h (hu g (by simp) hn)
    · rw [if_neg hn] at hstep
      rw [if_neg hn]
      subst hstep
      exact hp
  | tx t =>
    simp only [step, Except.ok.injEq] at hstep
    subst hstep
    unfold insertTx
    simp only
    split
    · exact hp
    · exact ⟨hp.valid, hp.paths, hp.filed, assign_stored hp.stored t⟩
  | dual p =>
    obtain ⟨rs, h, hl⟩ := hs
    simp only [step, Except.map] at hstep
    split at hstep
    · simp at hstep
    · rename_i out hout
      rw [Except.ok.injEq] at hstep
      subst hstep
      rcases insertDual_ok hout with rfl | ⟨r, c, hr, hadd, rfl⟩
      · exact hp.mono fun d hd => List.mem_append_right _ hd
      · obtain ⟨n, g, e1, e2, e3⟩ := (h.roots _ r).mp hr
        have hb := hpr ⟨g, List.mem_of_getElem? e2, e3⟩
        have hheader := (h.entry n r g e1 e2).2.1
        have hold := (hp.paths n r g (by rw [h.at]; exact e1) e2).2
        rw [← e3] at hb
        obtain ⟨c', g1, g2, g3⟩ := sum_paths H _ g.merkleRoot l (s.heap r).paths p.paths (hd _)
          (root_ne_zero (hp.valid g (List.mem_of_getElem? e2))) hc hold hb
        have hpe : p = ⟨p.paths, g.merkleRoot⟩ := by rw [e3]
        rw [hheader, hpe] at hadd
        have hcc : c' = c := by rw [g1] at hadd; exact Except.ok.inj hadd
        subst hcc
        simp only [rootOf, chainStep, Option.toList_some, List.singleton_append, ← e3]
        refine hp.extend h e1 e2 p.paths c' hb g2 g3 rfl rfl ?_ hp.stored
        intro t
        simp only
        by_cases ht : t ∈ p.paths.map (·.1)
        · exact .inr ⟨ht, if_pos ht⟩
        · exact .inl (if_neg ht)
  | txPath t p =>
    obtain ⟨rs, h, hl⟩ := hs
    simp only [step, Except.map] at hstep
    split at hstep
    · simp at hstep
    · rename_i out hout
      rw [Except.ok.injEq] at hstep
      subst hstep
      rcases insertTxPath_ok hout with rfl | ⟨r, c, hr, hadd, -, rfl⟩
      · exact hp.mono fun d hd => List.mem_append_right _ hd
      · obtain ⟨n, g, e1, e2, e3⟩ := (h.roots _ r).mp hr
        have hb : ∀ e ∈ [(txId H t, p)], e ∈ l ∧ Regular (joined H) (depth g.merkleRoot) g.merkleRoot e.1 e.2 := by
          intro e he
          rw [List.mem_singleton] at he
          subst he
          exact hpr g (List.mem_of_getElem? e2) e3
        have hheader := (h.entry n r g e1 e2).2.1
        have hold := (hp.paths n r g (by rw [h.at]; exact e1) e2).2
        obtain ⟨c', g1, g2, g3⟩ := sum_paths H _ g.merkleRoot l (s.heap r).paths _ (hd _)
          (root_ne_zero (hp.valid g (List.mem_of_getElem? e2))) hc hold hb
        rw [hheader, ← e3] at hadd
        have hcc : c' = c := by rw [g1] at hadd; exact Except.ok.inj hadd
        subst hcc
        simp only [rootOf, chainStep, Option.toList_some, List.singleton_append, ← e3]
        exact hp.extend h e1 e2 _ c' hb g2 g3 rfl rfl (fun _ => .inl rfl) (assign_stored hp.stored t)
  | removeTx t =>
    simp only [step, Except.ok.injEq] at hstep
    subst hstep
    unfold removeTx
    split
    · refine ⟨hp.valid, hp.paths, hp.filed, ?_⟩
      intro d x hx
      simp only [assign] at hx
      split at hx
      · simp at hx
      · exact hp.stored d x hx
    · exact hp

theorem run_proven (hd : ∀ g, depth g ≤ 31) (hc : NoCollisions (joined H) l) : ∀ (os : List Op) (s s' : Mem)
    (chain : List Header) (proved : List Digest), Tracks H s chain → Proven H l depth s chain proved →
    CarefulRun H l depth chain proved os → run H s os = .ok s' →
    ∃ proved', Proven H l depth s' (chainRun H chain os) proved'
  | [], s, s', chain, proved, _, hp, _, hr => by
    simp only [run, Except.ok.injEq] at hr
    subst hr
    exact ⟨proved, hp⟩
  | o :: os, s, s', chain, proved, hs, hp, ho, hr => by
    simp only [run, Except.bind] at hr
    split at hr
    · simp at hr
    · rename_i s1 h1
      exact run_proven hd hc os s1 s' _ _ (step_tracks H s s1 chain o hs ho.1 h1)
        (step_proven hd hc o hs hp ho.1 ho.2.1 ho.2.2.1 h1) ho.2.2.2 hr

theorem start_proven (h : Header) (hv : headerValid H h = true) : Proven H l depth (Mem.start H h) [h] [] := by
  have := insertHeader_proven (H := H) (l := l) (depth := depth) (proved := []) ⟨[], empty_holds H h, rfl⟩
    ⟨by simp, by simp, by simp, by simp⟩ 0 h (fun _ => ⟨Nat.le_refl _, by simp⟩)
  simpa [chainStep, hv, Mem.start] using this

/-- **C54**, for such histories: a transaction that is reported with a confirmation is confirmed by a header that is on
the chain, at the height reported, and the path reported leads from the id to the Merkle root of that header. -/
theorem C54_confirmed_partial (hd : ∀ g, depth g ≤ 31) (hc : NoCollisions (joined H) l) (h : Header)
    (hv : headerValid H h = true) (os : List Op) (s : Mem) (ho : CarefulRun H l depth [h] [] os)
    (hr : run H (Mem.start H h) os = .ok s) (t : Digest) (c : Confirmation)
    (hcf : (s.transaction t).confirmation = some c) :
    (chainRun H [h] os)[c.height]? = some c.header ∧ s.atHeight c.height = some (c.height, c.header) ∧
      Proves H t c.path c.header.merkleRoot ∧ ∀ x, (s.transaction t).transaction = some x → txId H x = t := by
  obtain ⟨rs, hh, hl⟩ := run_tracks H os _ s [h] (start_tracks H h hv) (CarefulRun.orderly ho) hr
  obtain ⟨proved, hp⟩ := run_proven hd hc os _ s [h] [] (start_tracks H h hv) (start_proven h hv) ho hr
  have hk := C53_knows_partial H h hv os s (CarefulRun.orderly ho) hr
  unfold Mem.transaction at hcf
  simp only [Option.map_eq_some_iff] at hcf
  obtain ⟨r, hr', rfl⟩ := hcf
  obtain ⟨n, hn, hmem⟩ := hp.filed t r hr'
  rw [hh.at] at hn
  obtain ⟨g, hg⟩ := hh.partner hn
  obtain ⟨e1, e2, -⟩ := hh.entry n r g hn hg
  have hpaths := (hp.paths n r g (by rw [hh.at]; exact hn) hg).2
  simp only [e1, e2]
  refine ⟨hg, by rw [hk.byHeight, hg]; rfl, ?_, hp.stored t⟩
  unfold Dual.find
  cases hf : List.find? (fun e => decide (e.1 = t)) (s.heap r).paths with
  | none =>
    rw [List.find?_eq_none] at hf
    obtain ⟨e, he, ht⟩ := List.mem_map.mp hmem
    exact absurd ht (by simpa using hf e he)
  | some e =>
    have h1 := List.mem_of_find?_eq_some hf
    have h2 := List.find?_some hf
    simp only [decide_eq_true_eq] at h2
    simp only [Option.map_some, Option.getD_some]
    rw [← h2]
    exact Regular.proves (hpaths e h1).2

/-- **C54**: so a transaction reported as confirmed passes the check of its proof. -/
theorem C54_validates_partial (hd : ∀ g, depth g ≤ 31) (hc : NoCollisions (joined H) l) (h : Header)
    (hv : headerValid H h = true) (os : List Op) (s : Mem) (ho : CarefulRun H l depth [h] [] os)
    (hr : run H (Mem.start H h) os = .ok s) (t : Digest) (hcf : (s.transaction t).confirmed = true) :
    (s.transaction t).validate H = true := by
  have hcf' := hcf
  unfold Found.confirmed at hcf
  rw [Bool.and_eq_true, Option.isSome_iff_exists, Option.any_eq_true] at hcf
  obtain ⟨⟨x, hx⟩, c, hcs, -⟩ := hcf
  obtain ⟨h1, -, h3, h4⟩ := C54_confirmed_partial hd hc h hv os s ho hr t c hcs
  obtain ⟨proved, hp⟩ := run_proven hd hc os _ s [h] [] (start_tracks H h hv) (start_proven h hv) ho hr
  have hcv := hp.valid c.header (List.mem_of_getElem? h1)
  simp only [Found.validate, hcf', hx, hcs, hcv, Bool.true_and, decide_eq_true_eq]
  rw [rootFrom_top, h4 x hx]
  exact h3.1

/-- **C54**: and it is reported as confirmed exactly if it is known and there is such a confirmation. -/
theorem C54_confirmed_iff_partial (hd : ∀ g, depth g ≤ 31) (hc : NoCollisions (joined H) l) (h : Header)
    (hv : headerValid H h = true) (os : List Op) (s : Mem) (ho : CarefulRun H l depth [h] [] os)
    (hr : run H (Mem.start H h) os = .ok s) (t : Digest) :
    (s.transaction t).confirmed = true ↔ (∃ x, (s.transaction t).transaction = some x) ∧ ∃ c, (s.transaction t).confirmation = some c := by
  unfold Found.confirmed
  rw [Bool.and_eq_true, Option.isSome_iff_exists, Option.any_eq_true]
  refine ⟨fun ⟨h1, c, h2, _⟩ => ⟨h1, c, h2⟩, fun ⟨h1, c, h2⟩ => ⟨h1, c, h2, ?_⟩⟩
  obtain ⟨h3, -, -, -⟩ := C54_confirmed_partial hd hc h hv os s ho hr t c h2
  obtain ⟨proved, hp⟩ := run_proven hd hc os _ s [h] [] (start_tracks H h hv) (start_proven h hv) ho hr
  have hcv := hp.valid c.header (List.mem_of_getElem? h3)
  simp only [headerValid, Bool.and_eq_true] at hcv
  exact hcv.2.2

/-- **C54**: once paths are accepted, each leaf is reported with a confirmation by the header with their root. -/
theorem C54_reported_partial (hd : ∀ g, depth g ≤ 31) (hc : NoCollisions (joined H) l) (h : Header)
    (hv : headerValid H h = true) (os : List Op) (s s' : Mem) (ho : CarefulRun H l depth [h] [] os)
    (hr : run H (Mem.start H h) os = .ok s) (p : Dual Digest) (hp : Proper H l depth (chainRun H [h] os) (.dual p))
    (hi : insertDual H s p = .ok (s', true)) (t : Digest) (ht : t ∈ p.paths.map (·.1)) :
    ∃ c, (s'.transaction t).confirmation = some c ∧ c.header.merkleRoot = p.root ∧ Proves H t c.path p.root ∧
      s'.pending t = (s.pending t && (s.transactions t).isNone) := by
  have hs := run_tracks H os _ s [h] (start_tracks H h hv) (CarefulRun.orderly ho) hr
  obtain ⟨proved, hpr⟩ := run_proven hd hc os _ s [h] [] (start_tracks H h hv) (start_proven h hv) ho hr
  have hstep : step H s (.dual p) = .ok s' := by simp only [step, hi]; rfl
  have hnew := step_proven hd hc (.dual p) hs hpr trivial hp trivial hstep
  obtain ⟨rs', hh', -⟩ := step_tracks H s s' _ (.dual p) hs trivial hstep
  obtain ⟨rs, hh, -⟩ := hs
  rcases insertDual_ok hi with he | ⟨r, c, hroot, hadd, he⟩
  · simp at he
  · rw [Prod.mk.injEq] at he
    obtain ⟨rfl, -⟩ := he
    obtain ⟨n, g, e1, e2, e3⟩ := (hh.roots _ r).mp hroot
    obtain ⟨m, hm, hmem⟩ := hnew.filed t r (if_pos ht)
    rw [hh'.at] at hm
    obtain ⟨g', hg'⟩ := hh'.partner hm
    have hpaths := (hnew.paths m r g' (by rw [hh'.at]; exact hm) hg').2
    obtain ⟨f1, f2, -⟩ := hh'.entry m r g' hm hg'
    have hgg : g' = g := by
      rw [← f2, ← (hh.entry n r g e1 e2).2.1]
      simp
    subst hgg
    have hpend : ∀ b c : Bool, (if t ∈ p.paths.map (·.1) ∧ b = true then false else c) = (c && !b) := by
      intro b c
      cases b <;> simp [ht]
    cases hf : List.find? (fun e => decide (e.1 = t)) c.paths with
    | none =>
      rw [List.find?_eq_none] at hf
      simp only [if_true] at hmem
      obtain ⟨e, he, ht⟩ := List.mem_map.mp hmem
      exact absurd ht (by simpa using hf e he)
    | some e =>
      have h1 := List.mem_of_find?_eq_some hf
      have h2 := List.find?_some hf
      simp only [decide_eq_true_eq] at h2
      refine ⟨⟨e.2, n, g'⟩, ?_, e3, ?_, ?_⟩
      · simp only [Mem.transaction, if_pos ht, Option.map_some, if_true, Dual.find, hf, Option.getD_some,
          (hh.entry n r g' e1 e2).1, (hh.entry n r g' e1 e2).2.1]
      · rw [← h2, ← e3]
        simp only [if_true] at hpaths
        exact Regular.proves (hpaths e h1).2
      · simp only [hpend]
        cases s.transactions t <;> rfl

/-! ### Failures and examples -/

/-- A transaction for examples. -/
def exampleTx : Tx := ⟨1, [⟨⟨5, 0⟩, [], 0⟩], [⟨7, []⟩], 0⟩

def exampleId : Digest := txId smallHash exampleTx

/-- A block of that transaction and another. -/
def exampleRoot : Digest := joined smallHash exampleId 9

-- two proofs for one block
example : ∃ (os : List Op) (l : List (Digest × Path Digest)) (s : Mem), CarefulRun smallHash l (fun _ => 1) [exampleHeader 7 0] [] os ∧
    NoCollisions (joined smallHash) l ∧ run smallHash (Mem.start smallHash (exampleHeader 7 0)) os = .ok s ∧
    (s.transaction exampleId).confirmed = true ∧ 3 < os.length := by
  obtain ⟨s, hs, hp⟩ := of_after (x := run smallHash (Mem.start smallHash (exampleHeader 7 0))
      [.header 1 (exampleHeader exampleRoot 1), .tx exampleTx, .dual ⟨[(exampleId, ⟨0, [some 9]⟩)], exampleRoot⟩,
        .dual ⟨[(9, ⟨1, [some exampleId]⟩)], exampleRoot⟩])
    (P := fun s => (s.transaction exampleId).confirmed) (by decide +kernel)
  refine ⟨_, [(exampleId, ⟨0, [some 9]⟩), (9, ⟨1, [some exampleId]⟩)], s, ?_, ?_, hs, hp, by simp⟩
  · simp only [CarefulRun, Orderly, Proper, Unproved, chainStep]
    refine ⟨by decide +kernel, trivial, trivial, trivial, trivial, trivial, trivial, ?_, trivial, trivial, ?_, trivial, trivial⟩
    · intro _ e he
      rw [List.mem_singleton.mp he]
      refine ⟨by simp, ?_⟩
      simp only [Regular, Plain]
      decide +kernel
    · intro _ e he
      rw [List.mem_singleton.mp he]
      refine ⟨by simp, ?_⟩
      simp only [Regular, Plain]
      decide +kernel
  · unfold NoCollisions
    decide +kernel

/-- **C54** fails when a header with proofs is removed: its transactions are still reported as confirmed by it. -/
theorem C54_false_stale : ∃ (h : Header) (os : List Op) (s : Mem) (t : Digest) (c : Confirmation),
    run smallHash (Mem.start smallHash h) os = .ok s ∧ (s.transaction t).confirmed = true ∧
    (s.transaction t).confirmation = some c ∧ s.atHeight c.height = none ∧ s.atDigest c.header.merkleRoot = none := by
  obtain ⟨s, hs, hp⟩ := of_after (x := run smallHash (Mem.start smallHash (exampleHeader 7 0))
      [.header 1 (exampleHeader exampleRoot 1), .tx exampleTx, .dual ⟨[(exampleId, ⟨0, [some 9]⟩)], exampleRoot⟩,
        .removeHeight 1])
    (P := fun s => (s.transaction exampleId).confirmed &&
      decide ((s.transaction exampleId).confirmation = some ⟨⟨0, [some 9]⟩, 1, exampleHeader exampleRoot 1⟩) &&
      (s.atHeight 1).isNone && (s.atDigest exampleRoot).isNone) (by decide +kernel)
  simp only [Bool.and_eq_true, decide_eq_true_eq, Option.isNone_iff_eq_none] at hp
  exact ⟨_, _, s, exampleId, _, hs, hp.1.1.1, hp.1.1.2, hp.1.2, hp.2⟩

/-- **C54** fails when the proofs accepted for one block conflict: the transaction is reported as confirmed with
a path that does not prove it. -/
theorem C54_false_lost : ∃ (h : Header) (os : List Op) (s : Mem) (t : Digest),
    run smallHash (Mem.start smallHash h) os = .ok s ∧ (s.transaction t).confirmed = true ∧
    (s.transaction t).validate smallHash = false := by
  obtain ⟨s, hs, hp⟩ := of_after (x := run smallHash (Mem.start smallHash (exampleHeader 7 0))
      [.header 1 (exampleHeader exampleRoot 1), .tx exampleTx, .dual ⟨[(exampleId, ⟨0, [some 9]⟩)], exampleRoot⟩,
        .dual ⟨[(exampleRoot, ⟨0, []⟩)], exampleRoot⟩])
    (P := fun s => (s.transaction exampleId).confirmed && !(s.transaction exampleId).validate smallHash) (by decide +kernel)
  simp only [Bool.and_eq_true, Bool.not_eq_true'] at hp
  exact ⟨_, _, s, exampleId, hs, hp.1, hp.2⟩

end Verif.SPV
