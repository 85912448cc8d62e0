import Verif.Proofs.Reading
import Verif.Proofs.UnifiedDiff
/-
A well-formed unified diff that ends after the first header line of another file.
-/
namespace KompareDiff2
open Spec Re

theorem afterFile_header (h : Header) (ok : h.Ok) : AfterFile [str "--- " ++ h.render] := by
  refine ⟨⟨by simp [str], ?_⟩, ?_⟩
  · intro l hl
    simp only [List.head?_cons, Option.some.injEq] at hl
    subst hl; simp [str, List.isPrefixOf]
  · intro st hst
    obtain ⟨c1, m1, _⟩ := unifiedHeader1_match h ok
    simp [checkHeader, hst, m1]

theorem files_truncated (win : Bool) (g : Generator) (hg : g ≠ .Perforce) (fs : List UFile) (ok : ∀ f ∈ fs, f.Ok)
    (later : ∀ f fs', fs = f :: fs' → ∀ k ∈ fs', ∀ t ts, k.preamble = t :: ts → SeparatorLine t)
    (h : Header) (hok : h.Ok)
    (n : Nat) (hn : fs.length < n) (st : PState) (vs : List MView) (inv : FilesInv st vs)
    (e : st.rest = fs.flatMap UFile.clean ++ [str "--- " ++ h.render]) :
    fileLoop (parseUnifiedDiffHeader win g) unifiedHunks (unifiedHeader1 g) n st = Res.ub := by
  induction fs generalizing n st vs with
  | nil =>
    cases n with
    | zero => simp at hn
    | succ n =>
      simp only [List.flatMap_nil, List.nil_append] at e
      have hr := unifiedHeader_reads win g
      obtain ⟨c1, m1, _⟩ := unifiedHeader1_match h hok
      have hf : UnifiedHeaderLine "--- " (str "--- " ++ h.render) :=
        (unifiedHeader1_lang _).1 ((Re.full_isSome _ _).1 (by rw [m1]; rfl))
      have : parseUnifiedDiffHeader win g st = Res.ub := by
        refine hr.truncated st [] _ (UnifiedHeaderLine "+++ ") e ?_ (by simp) ?_
        · cases g <;> first | rfl | exact absurd rfl hg
        · cases g <;> first | exact hf | exact absurd rfl hg
      simp [fileLoop, this]
  | cons f fs ih =>
    cases n with
    | zero => simp at hn
    | succ n =>
      simp only [List.length_cons] at hn
      have hafter : AfterFile (fs.flatMap UFile.clean ++ [str "--- " ++ h.render]) := by
        cases fs with
        | nil => simpa using afterFile_header h hok
        | cons f' fs =>
          rw [List.flatMap_cons, List.append_assoc]
          exact afterFile_file f' (ok f' (by simp)) (later f _ rfl f' (by simp)) _
      obtain ⟨st1, st2, h1, h2, st3, h3, h4, h5, h6⟩ := file_ok win g hg f (ok f (by simp)) st _ hafter
        (by rw [e, List.flatMap_cons, List.append_assoc]) vs inv
      have := ih (fun f hf => ok f (by simp [hf]))
        (by
          intro k ks hk k' hk' t ts ht
          exact later f fs rfl k' (by rw [hk]; simp [hk']) t ts ht) n (by omega) st3 _ h6 h4
      simp only [fileLoop, h1, Res.bind_ok, Bool.true_eq_false, if_false, h2, h3]
      exact this

theorem generator_append (ls : List Str) (l : Str) (h1 : (str "Index: ").isPrefixOf l = false) (h2 : (str "==== ").isPrefixOf l = false) :
    determineGenerator (ls ++ [l]) = determineGenerator ls := by
  induction ls with
  | nil => simp [determineGenerator, h1, h2]
  | cons x ls ih => simp only [List.cons_append, determineGenerator, ih]

theorem format_append (g : Generator) (ls more : List Str) (h : determineFormat g ls ≠ .UnknownFormat) :
    determineFormat g (ls ++ more) = determineFormat g ls := by
  induction ls with
  | nil => simp [determineFormat] at h
  | cons l ls ih =>
    simp only [determineFormat, List.cons_append] at h ⊢
    split at h
    · rfl
    · exact ih h

theorem parse_truncated (d : UDiff) (ok : d.Ok) (hne : d.files ≠ []) (ht : d.trailer = []) (h : Header) (hok : h.Ok) (win : Bool)
    (cmp : Str → Str → Int) (heap : Heap) : parse win cmp heap (d.render ++ [str "--- " ++ h.render]) = Res.ub := by
  have hg := UDiff.generator d ok
  have hfmt := UDiff.format d ok hne
  have hgen := generator_append d.render (str "--- " ++ h.render) (by simp [str, List.isPrefixOf]) (by simp [str, List.isPrefixOf])
  have hcl : cleanUpCrap (d.render ++ [str "--- " ++ h.render]) = Res.ok (d.clean ++ [str "--- " ++ h.render]) :=
    ((UDiff.cleans d ok).append (Cleans.plain (by simp [str, List.isPrefixOf]))).run
  have hlen : d.files.length < (d.clean ++ [str "--- " ++ h.render]).length + 1 := by
    have : d.files.length ≤ (d.files.flatMap UFile.clean).length := by
      induction d.files with
      | nil => simp
      | cons f fs ih => simp only [List.flatMap_cons, List.length_append, List.length_cons, UFile.clean]; omega
    simp only [UDiff.clean, List.length_append]; omega
  unfold parse
  rw [hgen, hcl]
  simp only [Res.bind_ok, parseLines]
  rw [format_append _ _ _ (by rw [hfmt]; simp), hfmt]
  simp only [unifiedFiles]
  rw [files_truncated win _ hg d.files ok.files ok.later h hok _ hlen _ [] ⟨by simp, rfl⟩ (by simp [UDiff.clean, ht])]
  rfl

end KompareDiff2
