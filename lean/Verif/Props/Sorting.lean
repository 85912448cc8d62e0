import Verif.Props.Parser

/-!
# C31 – the order of the models does not depend on how they are sorted

`DiffModelList::sort` calls `std::sort` (diffmodellist.cpp:11-19) with `operator<` of `DiffModel` (diffmodel.cpp:50-55).  `std::sort` is
defined only for a strict weak ordering, and it may leave models that compare equal in any order.
-/

namespace KompareDiff2
open Spec

/-- The test that `std::sort` is given: `*a < *b` (diffmodellist.cpp:11-14, diffmodel.cpp:50-55). -/
def modelLess (cmp : Str → Str → Int) (a b : DModel) : Prop := DModel.compareSource cmp a b < 0

/-- **C31.** The test given to `std::sort` is a strict weak ordering whenever the comparison of strings is an order: no model is smaller
than itself, it is transitive, and "neither is smaller" is transitive.  So the sort has no undefined behaviour. -/
theorem C31_strict_weak (cmp : Str → Str → Int) (ho : Orders cmp) :
    (∀ a, ¬ modelLess cmp a a) ∧
    (∀ a b c, modelLess cmp a b → modelLess cmp b c → modelLess cmp a c) ∧
    (∀ a b c, ¬ modelLess cmp a b → ¬ modelLess cmp b a → ¬ modelLess cmp b c → ¬ modelLess cmp c b →
      ¬ modelLess cmp a c ∧ ¬ modelLess cmp c a) ∧
    (∀ a b, modelLess cmp a b ↔ ¬ sourceLe cmp b a) := by
  unfold modelLess
  refine ⟨?_, ?_, ?_, ?_⟩
  · intro a h
    have := (compareSource_flip ho a a).1 h
    omega
  · intro a b c h1 h2
    have h3 := compareSource_trans ho a b c (by omega) (by omega)
    have f := compareSource_flip ho a b
    have f1 := compareSource_flip ho c a
    have f2 := compareSource_flip ho a c
    by_cases h0 : DModel.compareSource cmp a c < 0
    · exact h0
    · have := compareSource_trans ho c a b (by omega) (by omega)
      have g := compareSource_flip ho b c
      omega
  · intro a b c h1 h2 h3 h4
    have f1 := compareSource_flip ho a b
    have f2 := compareSource_flip ho b a
    have f3 := compareSource_flip ho c b
    have f4 := compareSource_flip ho b c
    have t1 := compareSource_trans ho a b c (by omega) (by omega)
    have t2 := compareSource_trans ho c b a (by omega) (by omega)
    have f5 := compareSource_flip ho a c
    have f6 := compareSource_flip ho c a
    omega
  · intro a b
    rw [← compareSource_le]
    have := compareSource_flip ho a b
    omega

/-- Models that the order does not tell apart. -/
def sourceTie (cmp : Str → Str → Int) (a b : DModel) : Prop := sourceLe cmp a b ∧ sourceLe cmp b a

theorem sourceTie_iff {cmp : Str → Str → Int} (ho : Orders cmp) (a b : DModel) :
    sourceTie cmp a b ↔ cmp a.sourcePath b.sourcePath = 0 ∧ cmp a.sourceFile b.sourceFile = 0 := by
  unfold sourceTie sourceLe
  have f1 := ho.flip a.sourcePath b.sourcePath
  have f2 := ho.flip b.sourcePath a.sourcePath
  have f3 := ho.flip a.sourceFile b.sourceFile
  have f4 := ho.flip b.sourceFile a.sourceFile
  omega

theorem sourceLe_trans {cmp : Str → Str → Int} (ho : Orders cmp) {a b c : DModel} (h1 : sourceLe cmp a b) (h2 : sourceLe cmp b c) :
    sourceLe cmp a c := by
  rw [← compareSource_le] at *
  exact compareSource_trans ho a b c h1 h2

/-- Two sorted arrangements of the same models agree position by position up to ties. -/
theorem sorted_ties {cmp : Str → Str → Int} (ho : Orders cmp) {xs ys : List DModel} (hp : xs.Perm ys)
    (hx : xs.Pairwise (sourceLe cmp)) (hy : ys.Pairwise (sourceLe cmp)) :
    xs.map (sourceTie cmp) = ys.map (sourceTie cmp) := by
  let le : (DModel → Prop) → (DModel → Prop) → Prop := fun P Q => ∃ a b, P = sourceTie cmp a ∧ Q = sourceTie cmp b ∧ sourceLe cmp a b
  have hself : ∀ a, sourceTie cmp a a := by
    intro a
    have : sourceLe cmp a a := by
      rw [← compareSource_le]
      have := compareSource_flip ho a a
      omega
    exact ⟨this, this⟩
  have hcls : ∀ a b, sourceTie cmp a = sourceTie cmp b → sourceLe cmp a b ∧ sourceLe cmp b a := by
    intro a b h
    have : sourceTie cmp a b := by rw [h]; exact hself b
    exact this
  refine List.Perm.eq_of_pairwise (le := le) ?_ ?_ ?_ (hp.map _)
  · rintro P Q _ _ ⟨a, b, rfl, rfl, h1⟩ ⟨c, d, e1, e2, h2⟩
    have hb := hcls _ _ e1
    have ha := hcls _ _ e2
    have hba : sourceLe cmp b a := sourceLe_trans ho hb.1 (sourceLe_trans ho h2 ha.2)
    funext z
    apply propext
    exact ⟨fun h => ⟨sourceLe_trans ho hba h.1, sourceLe_trans ho h.2 h1⟩, fun h => ⟨sourceLe_trans ho h1 h.1, sourceLe_trans ho h.2 hba⟩⟩
  · exact List.pairwise_map.2 (hx.imp (fun {a b} h => ⟨a, b, rfl, rfl, h⟩))
  · exact List.pairwise_map.2 (hy.imp (fun {a b} h => ⟨a, b, rfl, rfl, h⟩))

/-- **C31.** Whatever sort is used: every arrangement of the models found that is sorted has, at each position, a model with the same
source directory and source file (as the locale compares them) as the list that `parse` returns in the model. -/
theorem C31_any_sort (cmp : Str → Str → Int) (ho : Orders cmp) (st : PState) (ms ys : List DModel)
    (hm : (finishParse cmp st).models = some ms) (hp : ys.Perm st.models) (hs : ys.Pairwise (sourceLe cmp)) :
    ys.length = ms.length ∧ ∀ (i : Nat) (a b : DModel), ys[i]? = some a → ms[i]? = some b →
      cmp a.sourcePath b.sourcePath = 0 ∧ cmp a.sourceFile b.sourceFile = 0 := by
  have h := C31_sorted cmp ho st
  rw [hm] at h
  have e := sorted_ties ho (hp.trans h.2.1.symm) hs h.2.2
  refine ⟨by simpa using congrArg List.length e, ?_⟩
  intro i a b ha hb
  have hi := congrArg (fun l => l[i]?) e
  simp only [List.getElem?_map, ha, hb, Option.map_some, Option.some.injEq] at hi
  rw [← sourceTie_iff ho, hi]
  have : sourceLe cmp b b := by
    rw [← compareSource_le]
    have := compareSource_flip ho b b
    omega
  exact ⟨this, this⟩

/-- **C31.** When no two models found compare equal, there is only one sorted arrangement: any sort gives the same list. -/
theorem C31_only_sort (cmp : Str → Str → Int) (ho : Orders cmp) (st : PState) (ms ys : List DModel)
    (hm : (finishParse cmp st).models = some ms) (hp : ys.Perm st.models) (hs : ys.Pairwise (sourceLe cmp))
    (hd : ∀ a ∈ st.models, ∀ b ∈ st.models, cmp a.sourcePath b.sourcePath = 0 → cmp a.sourceFile b.sourceFile = 0 → a = b) :
    ys = ms := by
  have h := C31_sorted cmp ho st
  rw [hm] at h
  refine List.Perm.eq_of_pairwise (le := sourceLe cmp) ?_ hs h.2.2 (hp.trans h.2.1.symm)
  intro a b ha hb h1 h2
  have := (sourceTie_iff ho a b).1 ⟨h1, h2⟩
  exact hd a (hp.mem_iff.1 ha) b (h.2.1.mem_iff.1 hb) this.1 this.2

/-- Three models of two directories, found in the wrong order. -/
def exampleFound : PState :=
  let m (p f : String) : DModel := { sourcePath := str p, sourceFile := str f }
  { lines := [], rest := [], heap := ⟨fun _ => Diff.new 0 0, 0⟩, cur := {}, models := [m "lib/" "x", m "a/" "yy", m "a/" "z"], single := false, malformed := false }

/-- The hypotheses of the two theorems hold for it: the comparison (by length) is an order, no two of the models compare equal, and the list
returned is another arrangement than the one found. -/
example : Orders (fun a b => (a.length : Int) - b.length) ∧
    (finishParse (fun a b => (a.length : Int) - b.length) exampleFound).models =
      some [{ sourcePath := str "a/", sourceFile := str "z" }, { sourcePath := str "a/", sourceFile := str "yy" },
        { sourcePath := str "lib/", sourceFile := str "x" }] ∧
    ∀ a ∈ exampleFound.models, ∀ b ∈ exampleFound.models,
      (a.sourcePath.length : Int) - b.sourcePath.length = 0 → (a.sourceFile.length : Int) - b.sourceFile.length = 0 → a = b :=
  ⟨⟨fun a b => by omega, fun a b c => by omega⟩, by decide, by decide⟩

end KompareDiff2
