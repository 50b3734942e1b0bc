import Verif.Chain.Loader
import Verif.Chain.Props

/-!
C155: a header or transaction that is told its hash by a loader.
-/

namespace Verif.Chain

/-- What is known of the hash kept in an object: nothing is kept, that of the contents is, or an older
one is. -/
inductive Kept
  | nothing
  | current
  | old

/-- In the history, every hash that is told is that of the contents at that time, `v` at first, and the hash is not
asked for after a change of the contents, unless it had not been asked for before, or the new one was told or the
whole object was assigned in between. -/
def ToldRight {α : Type} (hash : α → BitVec 256) : (v : α) → Kept → List (LoaderUse α) → Prop
  | _, _, [] => True
  | _, .nothing, .use (.edit v) :: us => ToldRight hash v .nothing us
  | _, _, .use (.edit v) :: us => ToldRight hash v .old us
  | _, _, .use (.assign v) :: us => ToldRight hash v .nothing us
  | _, .old, .use .ask :: _ => False
  | v, _, .use .ask :: us => ToldRight hash v .current us
  | v, .nothing, .tell x :: us => x = hash v ∧ ToldRight hash v .nothing us
  | v, _, .tell x :: us => x = hash v ∧ ToldRight hash v .current us

/-- What a `Kept` says of an object. -/
def Kept.Of {α : Type} (hash : α → BitVec 256) (o : Object α) : Kept → Prop
  | .nothing => o.hash = none
  | .current => o.hash = some (hash o.fields)
  | .old => o.hash.isSome = true

theorem told_reports {α : Type} (hash : α → BitVec 256) (us : List (LoaderUse α)) (o : Object α) (k : Kept)
    (ho : k.Of hash o) (h : ToldRight hash o.fields k us) : ∀ r ∈ loaderReports hash o us, r.1 = hash r.2 := by
  induction us generalizing o k with
  | nil => intro r hr; cases hr
  | cons u us ih =>
    intro r hr
    obtain ⟨v, kept⟩ := o
    cases u with
    | tell x =>
      cases k with
      | nothing =>
        have hk : kept = none := ho
        subst hk
        exact ih ⟨v, none⟩ .nothing rfl h.2 r hr
      | current =>
        have hk : kept = some (hash v) := ho
        subst hk
        exact ih ⟨v, some x⟩ .current (congrArg some h.1) h.2 r hr
      | old =>
        have hk : kept.isSome = true := ho
        obtain ⟨y, rfl⟩ := Option.isSome_iff_exists.mp hk
        exact ih ⟨v, some x⟩ .current (congrArg some h.1) h.2 r hr
    | use u =>
      cases u with
      | edit w =>
        cases k with
        | nothing => exact ih ⟨w, kept⟩ .nothing ho h r hr
        | current =>
          refine ih ⟨w, kept⟩ .old ?_ h r hr
          have hk : kept = some (hash v) := ho
          subst hk; rfl
        | old => exact ih ⟨w, kept⟩ .old ho h r hr
      | assign w => cases k <;> exact ih ⟨w, none⟩ .nothing rfl h r hr
      | ask =>
        cases k with
        | nothing =>
          have hk : kept = none := ho
          subst hk
          simp only [loaderReports, Object.use, List.mem_cons] at hr
          rcases hr with rfl | hr
          · rfl
          · exact ih ⟨v, some (hash v)⟩ .current rfl h r hr
        | current =>
          have hk : kept = some (hash v) := ho
          subst hk
          simp only [loaderReports, Object.use, List.mem_cons] at hr
          rcases hr with rfl | hr
          · rfl
          · exact ih ⟨v, some (hash v)⟩ .current rfl h r hr
        | old => exact h.elim

/-- If a loader tells only right hashes, and does so before the hash is asked for of a transaction that was changed
after asking, then every id reported is that of the contents. -/
theorem C155_right (H : Bytes → BitVec 256) (t : Tx) (us : List (LoaderUse Tx))
    (h : ToldRight (txId H) t .nothing us) : ∀ r ∈ loaderReports (txId H) ⟨t, none⟩ us, r.1 = H r.2.write :=
  told_reports (txId H) us ⟨t, none⟩ .nothing rfl h

/-- The same for headers. -/
theorem C155_header_right (H : Bytes → BitVec 256) (x : Header) (us : List (LoaderUse Header))
    (h : ToldRight (fun x => H x.write) x .nothing us) :
    ∀ r ∈ loaderReports (fun x => H x.write) ⟨x, none⟩ us, r.1 = H r.2.write :=
  told_reports (fun x : Header => H x.write) us ⟨x, none⟩ .nothing rfl h

/-- What was told is what is reported next, for an object that was asked before. -/
theorem C155_told_partial {α : Type} (hash : α → BitVec 256) (v : α) (x : BitVec 256) (us : List (LoaderUse α)) :
    ∃ rest, loaderReports hash ⟨v, none⟩ (.use .ask :: .tell x :: .use .ask :: us) = (hash v, v) :: (x, v) :: rest :=
  ⟨_, rfl⟩

/-- The claim is false of an object that was not asked, such as every object that was just loaded: what is told is
dropped, and everything is reported as if it had not been told. -/
theorem C155_false_dropped {α : Type} (hash : α → BitVec 256) (v : α) (x : BitVec 256) (us : List (LoaderUse α)) :
    loaderReports hash ⟨v, none⟩ (.tell x :: us) = loaderReports hash ⟨v, none⟩ us := rfl

example : ToldRight (txId Work.toyHash) ⟨1, [], [], 0⟩ .nothing
    [.tell (Work.toyHash (Tx.mk 1 [] [] 0).write), .use .ask, .use (.edit ⟨1, [], [⟨5, []⟩], 0⟩),
     .tell (Work.toyHash (Tx.mk 1 [] [⟨5, []⟩] 0).write), .use .ask] :=
  ⟨rfl, rfl, trivial⟩

/-- The two ids reported there differ. -/
example : Work.toyHash (Tx.mk 1 [] [] 0).write ≠ Work.toyHash (Tx.mk 1 [] [⟨5, []⟩] 0).write := by decide +kernel

end Verif.Chain
