import Verif.Stratum.ConfigureAnswer
import Verif.Stratum.SessionProps

/-
Property C111: what is asked for in a configure request, and what is answered, are read as they were written.
-/

namespace Verif.Stratum

open Verif.Net Verif.Text

namespace Spec

/-- The same entries, in whatever order they are gone through. -/
def SameMap (a b : Map V) : Prop := (b.map (·.1)).Nodup ∧ ∀ e, e ∈ a ↔ e ∈ b

end Spec

/-! The list that is sent -/

/-- **C111** The extensions that a client names and their parameters are read from the list that is sent as they were written, if no
extension is named twice, and otherwise nothing is read of it. -/
theorem C111_params (p : Configure) : Configure.deserialize p.serialize = if p.supported.Nodup then p else ⟨[], []⟩ := by
  have h1 : ((p.supported.map Json.str).all isString) = true := by
    rw [List.all_eq_true]
    intro j hj
    obtain ⟨s, -, rfl⟩ := List.mem_map.1 hj
    rfl
  have h2 : (p.supported.map Json.str).filterMap Json.str? = p.supported := by
    rw [List.filterMap_map]
    have : (Json.str? ∘ Json.str) = some := rfl
    rw [this, List.filterMap_some]
  unfold Configure.deserialize Configure.serialize
  simp only [Configure.validJson, h1, h2, Bool.true_and, decide_eq_true_eq]

/-- **C111** What is taken for a configure request is what is sent for one in which no extension is named twice. -/
theorem C111_valid (l : List Json) :
    Configure.validJson l = true ↔ ∃ p : Configure, p.supported.Nodup ∧ l = p.serialize := by
  constructor
  · intro h
    unfold Configure.validJson at h
    split at h
    · rename_i l m
      rw [Bool.and_eq_true, decide_eq_true_eq] at h
      refine ⟨⟨l.filterMap Json.str?, m⟩, h.2, ?_⟩
      have : (l.filterMap Json.str?).map Json.str = l := by
        have h1 := List.all_eq_true.1 h.1
        clear h
        induction l with
        | nil => rfl
        | cons j l ih =>
          have hj := h1 j List.mem_cons_self
          cases j <;> simp [isString] at hj
          simp only [List.filterMap_cons, Json.str?, List.map_cons]
          rw [ih fun x hx => h1 x (List.mem_cons_of_mem _ hx)]
      rw [Configure.serialize, this]
    · simp at h
  · rintro ⟨p, hp, rfl⟩
    have := C111_params p
    unfold Configure.deserialize at this
    rw [if_pos hp] at this
    have h1 : ((p.supported.map Json.str).all isString) = true := by
      rw [List.all_eq_true]
      intro j hj
      obtain ⟨s, -, rfl⟩ := List.mem_map.1 hj
      rfl
    have h2 : (p.supported.map Json.str).filterMap Json.str? = p.supported := by
      rw [List.filterMap_map]
      have : (Json.str? ∘ Json.str) = some := rfl
      rw [this, List.filterMap_some]
    simp [Configure.serialize, Configure.validJson, h1, h2, hp]

example : (Configure.mk ["a".toList, "b".toList] [("a.x".toList, .int 1)]).supported.Nodup := by decide

/-! Requests -/

/-- **C111, partial** Exactly which requests are read as they were written, in whatever order the parameters are gone through: those in
which every parameter has the name of the extension that it belongs to, and no dot.  What is missing are all others, for the name of a
parameter is written twice in place of the name of the extension and its own. -/
theorem C111_requests_partial (r : Requests) (hr : Spec.WellFormed r) :
    (∀ n q k v, (n, q) ∈ r → (k, v) ∈ q → k = n ∧ '.' ∉ n) ↔
      ∀ params, Spec.SameMap (Configure.ofRequests r).params params →
        ∃ r', (Configure.mk (Configure.ofRequests r).supported params).toRequests = some r' ∧ Spec.WellFormed r' ∧
          Spec.SameRequests r r' := by
  have hsup : ∀ n, n ∈ (Configure.ofRequests r).supported ↔ ∃ q, (n, q) ∈ r := by
    intro n
    show n ∈ r.map (·.1) ↔ _
    rw [List.mem_map]
    exact ⟨fun ⟨e, h, h'⟩ => ⟨e.2, h' ▸ h⟩, fun ⟨q, h⟩ => ⟨_, h, rfl⟩⟩
  constructor
  · intro h params hp
    have hval : ∀ n q k v, (n, q) ∈ r → (k, v) ∈ q → ∀ w, (n ++ '.' :: n, w) ∈ (Configure.ofRequests r).params → w = v := by
      have huw : Map.Unique (written r) := by
        rw [Map.Unique, List.Nodup, List.pairwise_map, written, List.pairwise_flatMap]
        constructor
        · intro e he
          rw [List.pairwise_map]
          have := hr.2 e he
          rw [List.Nodup, List.pairwise_map] at this
          exact this.imp fun hab hx => hab (double_inj hx)
        · have h1 := hr.1
          rw [List.Nodup, List.pairwise_map] at h1
          refine List.Pairwise.imp_of_mem ?_ h1
          intro a b ha hb hab x hx y hy hxy
          obtain ⟨k, hk, rfl⟩ := List.mem_map.1 hx
          obtain ⟨k', hk', rfl⟩ := List.mem_map.1 hy
          have := double_inj hxy
          exact hab ((h a.1 a.2 k.1 k.2 ha hk).1.symm.trans (this.trans (h b.1 b.2 k'.1 k'.2 hb hk').1))
      intro n q k v h1 h2 w hw
      have hk := (h n q k v h1 h2).1
      subst hk
      have := (Map.get_iff (ofRequests_unique r) _ _).2 hw
      rw [ofRequests_params, Map.setAll_get _ _ huw, (Map.get_iff huw _ v).2 (written_mem.2 ⟨k, q, k, h1, h2, rfl⟩)] at this
      exact (Option.some.inj this).symm
    have hok : ∃ r', (Configure.mk (Configure.ofRequests r).supported params).toRequests = some r' := by
      rw [toRequests_ok]
      intro e he
      obtain ⟨n, q, a, w, h1, h2, h3⟩ := ofRequests_mem ((hp.2 e).2 he)
      obtain ⟨rfl, hd⟩ := h n q a w h1 h2
      exact ⟨a, a, h3, hd, hd, (hsup a).2 ⟨q, h1⟩⟩
    obtain ⟨r', hr'⟩ := hok
    obtain ⟨h1, h2, h3⟩ := toRequests_eq (p := Configure.mk (Configure.ofRequests r).supported params) hp.1 hr'
    refine ⟨r', hr', h1, fun n => ((hsup n).symm.trans (h2 n).symm), ?_⟩
    intro n k v
    rw [h3]
    constructor
    · rintro ⟨q, h4, h5⟩
      obtain ⟨rfl, hd⟩ := h n q k v h4 h5
      refine ⟨hd, hd, (hp.2 _).1 ?_⟩
      obtain ⟨w, hw⟩ := ofRequests_key h4 h5
      rw [← hval k q k v h4 h5 w hw]
      exact hw
    · rintro ⟨hn, hk, hm⟩
      have hm := (hp.2 _).2 hm
      obtain ⟨n', q, a, w, h4, h5, h6⟩ := ofRequests_mem hm
      obtain ⟨rfl, hd⟩ := h n' q a w h4 h5
      obtain ⟨rfl, rfl⟩ := dot_inj hn hd h6
      rw [hval k q k w h4 h5 v hm]
      exact ⟨q, h4, h5⟩
  · intro h n q k v h1 h2
    obtain ⟨r', h3, -, h4⟩ := h _ ⟨ofRequests_unique r, fun e => Iff.rfl⟩
    obtain ⟨-, -, h5⟩ := toRequests_eq (ofRequests_unique r) h3
    obtain ⟨hn, hk, hm⟩ := (h5 n k v).1 ((h4.2 n k v).1 ⟨q, h1, h2⟩)
    obtain ⟨n', q', a, w, -, -, h6⟩ := ofRequests_mem hm
    have hka : '.' ∉ a := by
      obtain ⟨e1, e2⟩ : n = a ∧ k = a := by
        have hl := congrArg (List.count '.') h6
        simp only [List.count_append, List.count_cons, beq_self_eq_true, if_true, List.count_eq_zero.2 hn, List.count_eq_zero.2 hk] at hl
        have ha : '.' ∉ a := List.count_eq_zero.1 (by omega)
        exact dot_inj hn ha h6
      exact e1 ▸ hn
    obtain ⟨e1, e2⟩ := dot_inj hn hka h6
    exact ⟨e2.trans e1.symm, hn⟩

example : ∀ n q k v, (n, q) ∈ ([("a".toList, [("a".toList, .int 1)]), ("b".toList, [])] : Requests) → (k, v) ∈ q → k = n ∧ '.' ∉ n := by
  intro n q k v h1 h2
  simp at h1
  rcases h1 with ⟨rfl, rfl⟩ | ⟨rfl, rfl⟩
  · simp at h2
    rw [h2.1]
    decide
  · simp at h2

/-- **C111, false as stated** Whoever reads a request with a parameter that has not the name of an extension that is asked for gets an
exception. -/
theorem C111_false_requests (r : Requests) (n : List Char) (q : Request) (k : List Char) (v : Json) (h1 : (n, q) ∈ r) (h2 : (k, v) ∈ q)
    (hk : ∀ q', (k, q') ∉ r) : (Configure.ofRequests r).toRequests = none := by
  cases h : (Configure.ofRequests r).toRequests with
  | none => rfl
  | some r' =>
    obtain ⟨w, hw⟩ := ofRequests_key h1 h2
    obtain ⟨a, b, h3, h4, h5, h6⟩ := (toRequests_ok _).1 ⟨r', h⟩ _ hw
    have hd : '.' ∉ k := by
      have hl := congrArg (List.count '.') h3
      simp only [List.count_append, List.count_cons, beq_self_eq_true, if_true, List.count_eq_zero.2 h4, List.count_eq_zero.2 h5] at hl
      exact List.count_eq_zero.1 (by omega)
    obtain ⟨rfl, -⟩ := dot_inj hd h4 h3
    obtain ⟨e, h7, h8⟩ := List.mem_map.1 (show k ∈ r.map (·.1) from h6)
    exact absurd (show (k, e.2) ∈ r from h8 ▸ h7) (hk e.2)

/-- **C111, false as stated** A request for any of the extensions that the library has, other than the one that has no parameters, is
refused by the library's own reader. -/
theorem C111_false_extensions (c : Config) (h : c ≠ .subscribeExtranonce) :
    (Configure.ofRequests (Requests.insert [] c)).toRequests = none := by
  have hi : Requests.insert [] c = [(c.extension.text, c.request)] := rfl
  rw [hi]
  cases c with
  | subscribeExtranonce => exact absurd rfl h
  | versionRolling m n =>
    refine C111_false_requests _ _ _ "min-bit-count".toList (.int n.toNat) List.mem_cons_self ?_ ?_
    · simp [Config.request]
    · intro q hq
      have := (Prod.mk.inj (List.mem_singleton.1 hq)).1
      exact absurd this (by simp only [Config.extension]; decide)
  | minimumDifficulty v =>
    refine C111_false_requests _ _ _ "value".toList v List.mem_cons_self ?_ ?_
    · simp [Config.request]
    · intro q hq
      have := (Prod.mk.inj (List.mem_singleton.1 hq)).1
      exact absurd this (by simp only [Config.extension]; decide)
  | info a b c d =>
    refine C111_false_requests _ _ _ "hw-id".toList (.str d) List.mem_cons_self ?_ ?_
    · simp [Config.request]
    · intro q hq
      have := (Prod.mk.inj (List.mem_singleton.1 hq)).1
      exact absurd this (by simp only [Config.extension]; decide)

/-! What an extension is asked for with -/

/-- **C111, partial** Of what the library puts into a request, the extension without parameters is read as it was, and a minimum difficulty if it is
a number that is not negative.  What is missing are the other two. -/
theorem C111_config_partial (r : Requests) (c : Config) :
    (c = .subscribeExtranonce ∨ ∃ v, c = .minimumDifficulty v ∧ (v = .real ∨ ∃ n : Nat, v = .int n)) ↔
      Requests.get (Requests.insert r c) c.extension = .ok c := by
  have hg : Requests.get (Requests.insert r c) c.extension = Config.read c.extension c.request := by
    rw [Requests.get, Requests.insert, Map.get_set, if_pos rfl]
  rw [hg]
  cases c with
  | subscribeExtranonce => simp [Config.read, Config.extension]
  | versionRolling m n =>
    have h1 : Map.get (Config.versionRolling m n).request "mask".toList = some (.str (writeVersionMask m)) := rfl
    have h2 : Map.get (Config.versionRolling m n).request "min-bit-count".toList = some (.int n.toNat) := rfl
    have h3 : isUnsigned (.int n.toNat) = true := by simp [isUnsigned]
    simp only [Config.read, Config.extension, h1, h2, h3, if_true, Json.str?, (C61_false_text [] m).2]
    simp
  | minimumDifficulty v =>
    have h1 : Map.get (Config.minimumDifficulty v).request "value".toList = some v := rfl
    simp only [Config.read, Config.extension, h1]
    cases v with
    | int n =>
      simp only
      by_cases hn : 0 ≤ n
      · rw [if_pos hn]
        simp only [iff_true]
        exact Or.inr ⟨_, rfl, Or.inr ⟨n.toNat, by rw [Int.toNat_of_nonneg hn]⟩⟩
      · rw [if_neg hn]
        constructor
        · rintro (h | ⟨v, h, h' | ⟨m, h'⟩⟩)
          · cases h
          · cases h; cases h'
          · cases h
            cases h'
            exact absurd (Int.natCast_nonneg m) hn
        · intro h; cases h
    | _ => simp
  | info a b c d =>
    have h1 : Map.get (Config.info a b c d).request "sw-id".toList = none := rfl
    simp only [Config.read, Config.extension, h1]
    simp

/-- **C111, false as stated** Version rolling and information about the miner are asked for in a way that is not understood: what is read is
that they were not asked for. -/
theorem C111_false_config (r : Requests) (c : Config) (h : c.extension = .versionRolling ∨ c.extension = .info) :
    Requests.get (Requests.insert r c) c.extension = .none := by
  have hg : Requests.get (Requests.insert r c) c.extension = Config.read c.extension c.request := by
    rw [Requests.get, Requests.insert, Map.get_set, if_pos rfl]
  rw [hg]
  cases c with
  | subscribeExtranonce => simp [Config.extension] at h
  | minimumDifficulty v => simp [Config.extension] at h
  | versionRolling m n =>
    have h1 : Map.get (Config.versionRolling m n).request "mask".toList = some (.str (writeVersionMask m)) := rfl
    have h2 : Map.get (Config.versionRolling m n).request "min-bit-count".toList = some (.int n.toNat) := rfl
    have h3 : isUnsigned (.int n.toNat) = true := by simp [isUnsigned]
    simp only [Config.read, Config.extension, h1, h2, h3, if_true, Json.str?, (C61_false_text [] m).2]
  | info a b c d =>
    have h1 : Map.get (Config.info a b c d).request "sw-id".toList = none := rfl
    simp only [Config.read, Config.extension, h1]
    split
    · rename_i h2
      cases h2
    · rfl

/-! Answers -/

/-- **C111, partial** Exactly which answers are read as they were written, in whatever order the entries are gone through: those in which no
name of an extension or parameter has a dot, every extension is either accepted or not, and only those that are accepted have
parameters.  What is missing are the parameters of those that are not accepted. -/
theorem C111_results_partial (r : Results) (hr : Spec.WellFormedResults r) :
    (∀ n x, (n, x) ∈ r → '.' ∉ n ∧ x.accepted ≠ .nothing ∧
      ∀ k v, (k, v) ∈ x.params → x.accepted = .flag true ∧ '.' ∉ k) ↔
    ∃ p, writeResults r = some p ∧ ∀ p', Spec.SameMap p p' →
      ∃ r', readResults p' = some r' ∧ Spec.WellFormedResults r' ∧ Spec.SameResults r r' := by
  have hup : ∀ l : List (List Char × Json), Map.Unique (Map.setAll [] l) := fun l => Map.setAll_unique (by simp [Map.Unique]) l
  constructor
  · intro h
    have hu := answerList_unique hr fun e he => (h e.1 e.2 he).1
    refine ⟨_, (writeResults_eq r _).2 ⟨fun e he => (h e.1 e.2 he).2.1, rfl⟩, ?_⟩
    intro p' hp
    have hm : ∀ k v, (k, v) ∈ p' ↔ ∃ e ∈ r, (k, v) ∈ answer e := by
      intro k v
      rw [← hp.2, ← Map.get_iff (hup _), Map.setAll_get _ _ hu, Map.get_nil, Option.or_none, Map.get_iff hu, List.mem_flatMap]
    have hhead : ∀ e ∈ r, ∃ j, (e.1, j) ∈ answer e ∧ Accepted.ofJson j = e.2.accepted := by
      intro e he
      have := (h e.1 e.2 he).2.1
      refine ⟨_, List.mem_cons_self, ?_⟩
      cases ha : e.2.accepted with
      | nothing => exact absurd ha this
      | flag b => rfl
      | reason s => rfl
    have hone : ∀ n x y, (n, x) ∈ r → (n, y) ∈ r → x = y := by
      intro n x y h1 h2
      exact Option.some.inj (((Map.get_iff hr.1 n x).2 h1).symm.trans ((Map.get_iff hr.1 n y).2 h2))
    have hok : ∃ r', readResults p' = some r' := by
      rw [readResults_ok hp.1]
      intro x hx
      obtain ⟨e, he, hxe⟩ := (hm x.1 x.2).1 hx
      rcases answer_mem hxe with h1 | ⟨h1, a, h2, h3⟩
      · exact Or.inl (h1 ▸ (h e.1 e.2 he).1)
      · obtain ⟨j, hj, -⟩ := hhead e he
        exact Or.inr ⟨e.1, a, h3, (h e.1 e.2 he).1, ((h e.1 e.2 he).2.2 a x.2 h2).2, j, (hm _ _).2 ⟨e, he, hj⟩⟩
    obtain ⟨r', hr'⟩ := hok
    obtain ⟨h1, h2, h3⟩ := readResults_eq hp.1 hr'
    refine ⟨r', hr', h1, ?_, ?_⟩
    · intro n x
      rw [h2]
      constructor
      · rintro ⟨q, hq, rfl⟩
        obtain ⟨j, hj, hj'⟩ := hhead _ hq
        exact ⟨(h n q hq).1, j, (hm _ _).2 ⟨_, hq, hj⟩, hj'⟩
      · rintro ⟨hn, j, hj, rfl⟩
        obtain ⟨e, he, hje⟩ := (hm _ _).1 hj
        rcases answer_mem hje with h4 | ⟨-, a, -, h4⟩
        · subst h4
          obtain ⟨j', hj', hja⟩ := hhead e he
          have := Option.some.inj (((Map.get_iff hp.1 _ _).2 ((hm _ _).2 ⟨e, he, hj'⟩)).symm.trans ((Map.get_iff hp.1 _ _).2 hj))
          exact ⟨e.2, he, by rw [← this, hja]⟩
        · exact absurd (h4 ▸ dot_mem _ _) hn
    · intro n k v
      rw [h3]
      constructor
      · rintro ⟨q, hq, hk⟩
        obtain ⟨h4, -, h5⟩ := h n q hq
        obtain ⟨h6, h7⟩ := h5 k v hk
        refine ⟨h4, h7, (hm _ _).2 ⟨_, hq, ?_⟩⟩
        unfold answer
        simp only [if_pos h6]
        exact List.mem_cons_of_mem _ (List.mem_map.2 ⟨_, hk, rfl⟩)
      · rintro ⟨hn, hk, hv⟩
        obtain ⟨e, he, hve⟩ := (hm _ _).1 hv
        rcases answer_mem hve with h4 | ⟨-, a, h5, h4⟩
        · exact absurd (h4 ▸ dot_mem _ _) (h e.1 e.2 he).1
        · obtain ⟨rfl, rfl⟩ := dot_inj hn (h e.1 e.2 he).1 h4
          exact ⟨e.2, he, h5⟩
  · rintro ⟨p, hw, h⟩
    obtain ⟨hn, rfl⟩ := (writeResults_eq r p).1 hw
    obtain ⟨r', h1, -, h2⟩ := h _ ⟨hup _, fun e => Iff.rfl⟩
    obtain ⟨-, h3, h4⟩ := readResults_eq (hup _) h1
    have hdot : ∀ n x, (n, x) ∈ r → '.' ∉ n := by
      intro n x hx
      exact ((h3 n x.accepted).1 ((h2.1 n x.accepted).1 ⟨x, hx, rfl⟩)).1
    intro n x hx
    refine ⟨hdot n x hx, hn _ hx, ?_⟩
    intro k v hk
    obtain ⟨-, h5, h6⟩ := (h4 n k v).1 ((h2.2 n k v).1 ⟨x, hx, hk⟩)
    refine ⟨?_, h5⟩
    have hs : (Map.get (Map.setAll [] (r.flatMap answer)) (n ++ '.' :: k)).isSome := by
      rw [(Map.get_iff (hup _) _ _).2 h6]; rfl
    rw [Map.setAll_keys] at hs
    rcases hs with hs | hs
    · obtain ⟨⟨k', w⟩, h7, h8⟩ := List.mem_map.1 hs
      simp only at h8
      subst h8
      obtain ⟨e, he, hve⟩ := List.mem_flatMap.1 h7
      rcases answer_mem hve with h9 | ⟨h10, a, -, h9⟩
      · exact absurd (h9 ▸ dot_mem _ _) (hdot e.1 e.2 he)
      · obtain ⟨e1, -⟩ := dot_inj (hdot n x hx) (hdot e.1 e.2 he) h9
        have : x = e.2 := Option.some.inj (((Map.get_iff hr.1 n x).2 hx).symm.trans ((Map.get_iff hr.1 n e.2).2 (e1 ▸ he)))
        exact this ▸ h10
    · simp [Map.get_nil] at hs

/-- An extension that is accepted with a parameter, one that is refused and one that is refused for a reason. -/
example : ∀ n x, (n, x) ∈ ([("a".toList, ⟨.flag true, [("m".toList, .int 7)]⟩), ("b".toList, ⟨.flag false, []⟩),
      ("c".toList, ⟨.reason "no".toList, []⟩)] : Results) →
    '.' ∉ n ∧ x.accepted ≠ .nothing ∧ ∀ k v, (k, v) ∈ x.params → x.accepted = .flag true ∧ '.' ∉ k := by
  intro n x h
  simp at h
  rcases h with ⟨rfl, rfl⟩ | ⟨rfl, rfl⟩ | ⟨rfl, rfl⟩
  · refine ⟨by decide, by decide, ?_⟩
    intro k v hk
    simp at hk
    rw [hk.1]
    decide
  · exact ⟨by decide, by decide, by simp⟩
  · exact ⟨by decide, by decide, by simp⟩

/-- **C111, false as stated** An answer that is made of parameters alone has none of them. -/
theorem C111_false_accept (p : Map Json) : (Result.ofParams p).accepted = .flag true ∧ (Result.ofParams p).params = [] := ⟨rfl, rfl⟩

/-- **C111** What is written for one extension is what is read as that answer, and is there unless the answer is neither a yes or no nor a reason; only a
yes counts as one, and whether an answer is one is not said of what is neither. -/
theorem C111_answer (a : Accepted) (j : Json) :
    (a.json = some j ↔ Accepted.ofJson j = a ∧ a ≠ .nothing) ∧ (a.bool = some true ↔ a = .flag true) ∧
      (a.bool = none ↔ a = .nothing) ∧ (a.json = none ↔ a = .nothing) := by
  refine ⟨?_, ?_, ?_, ?_⟩
  · cases a <;> cases j <;> simp [Accepted.json, Accepted.ofJson, eq_comm]
  · cases a <;> simp [Accepted.bool]
  · cases a <;> simp [Accepted.bool]
  · cases a <;> simp [Accepted.json]

/-- **C111, false as stated** What is taken for a good answer is one that refuses, or that accepts without parameters: an extension that is
accepted with a value is not a good answer. -/
theorem C111_false_valid (r : Result) :
    r.valid = true ↔ r.accepted = .flag false ∨ (∃ s, r.accepted = .reason s) ∨ (r.accepted = .flag true ∧ r.params = []) := by
  obtain ⟨a, p⟩ := r
  cases a with
  | nothing => simp [Result.valid, Accepted.valid]
  | reason s => simp [Result.valid, Accepted.valid, Accepted.bool]
  | flag b => cases b <;> simp [Result.valid, Accepted.valid, Accepted.bool]

namespace Spec

/-- The names of the extensions by which the client of this library looks for the answers, client_session.cpp 62, 77, 88 and 97. -/
def standardName : Extension → List Char
  | .versionRolling => "version-rolling".toList
  | .minimumDifficulty => "minimum-difficulty".toList
  | .subscribeExtranonce => "subscribe-extranonce".toList
  | .info => "info".toList

end Spec

/-- **C111, false as stated** An extension is not asked for by its name: for each hyphen an underscore is sent, so that of the four only the
name without one is understood by whoever knows the names. -/
theorem C111_false_names (x : Extension) :
    x.text = (Spec.standardName x).map (fun c => if c = '-' then '_' else c) ∧ (x.text = Spec.standardName x ↔ x = .info) := by
  cases x <;> exact ⟨by decide +kernel, by decide +kernel⟩

/-- **C111, false as stated** Whether there is an answer to everything that was asked is said to be so only if nothing was asked, whatever was
answered. -/
theorem C111_false_answered (r : Map Json) (q : Requests) : validResult r q = true ↔ q = [] := by
  constructor
  · intro h
    cases q with
    | nil => rfl
    | cons e q => simp [validResult, Json.get] at h
  · rintro rfl; rfl

/-- **C111** Version rolling is read just from parameters that have a mask that is read, and a number of bits that is an integer that
is not negative. -/
theorem C111_rolling_iff (p : Request) (c : Config) :
    Config.read .versionRolling p = .ok c ↔ ∃ (s : List Char) (n : Nat) (mask : BitVec 32), Map.get p "mask".toList = some (.str s) ∧
      Map.get p "min-bit-count".toList = some (.int n) ∧ readVersionMask s = .ok mask ∧ c = .versionRolling mask (UInt8.ofNat n) := by
  unfold Config.read
  cases hm : Map.get p "mask".toList with
  | none => simp
  | some m =>
    cases hn : Map.get p "min-bit-count".toList with
    | none => simp
    | some n =>
      cases n with
      | int n =>
        simp only [isUnsigned]
        by_cases h0 : 0 ≤ n
        · obtain ⟨k, rfl⟩ := Int.eq_ofNat_of_zero_le h0
          cases m with
          | str s =>
            cases hr : readVersionMask s with
            | ok mask =>
              simp [Json.str?, Json.int?, hr]
              constructor
              · rintro rfl
                exact ⟨k, by omega, rfl⟩
              · rintro ⟨k', h1, rfl⟩
                have : k = k' := by omega
                rw [this]
            | refused => simp [Json.str?, hr]
            | ub => simp [Json.str?, hr]
          | _ => simp [Json.str?]
        · simp [h0]
          intro s _ k hk
          omega
      | _ => simp [isUnsigned]

end Verif.Stratum
