import Verif.Spec.Damage
import Verif.Props.Shown
import Verif.Proofs.WriteBack
/-
Proofs about unified diffs that are damaged in some files.
-/
namespace KompareDiff2
open Spec

theorem unifiedHead_of (h : UHunk) (ok : h.Ok) :
    UnifiedHead h.header h.view.srcLine h.view.dstLine h.srcCount h.dstCount h.view.function ∧ h.srcCount ≤ intMax ∧ h.dstCount ≤ intMax := by
  obtain ⟨c, hc, hu⟩ := UHunk.header_match h ok
  have hl : reUnifiedHunkHeader.Lang h.header := (Re.full_isSome _ _).1 (by rw [hc]; rfl)
  obtain ⟨n, m, hh⟩ := (hunkHeader_lang _).1 hl
  obtain ⟨h1, h2, h3, h4, h5⟩ := hunkHead_full hh hc hu
  have e1 : (h.srcCount : Int) = n := h2
  have e2 : (h.dstCount : Int) = m := h3
  have e1 : h.srcCount = n := by omega
  have e2 : h.dstCount = m := by omega
  rw [e1, e2]
  exact ⟨h1, h4, h5⟩

theorem body_run_both (vs after r : List Str) (n m : Int) (hn : 0 ≤ n) (hb : UnifiedBody n m after r) :
    UnifiedBody (n + vs.length) (m + vs.length) (vs.map (fun v => ' ' :: v) ++ after) r := by
  induction vs with
  | nil => simpa using hb
  | cons v vs ih =>
    refine .both _ _ v _ r (.inl ?_) ?_
    · simp only [List.length_cons]; omega
    · have e1 : n + ((v :: vs).length : Int) - 1 = n + vs.length := by simp only [List.length_cons]; omega
      have e2 : m + ((v :: vs).length : Int) - 1 = m + vs.length := by simp only [List.length_cons]; omega
      rw [e1, e2]; exact ih

theorem body_run_old (vs after r : List Str) (n m : Int) (hn : 0 ≤ n) (hb : UnifiedBody n m after r) :
    UnifiedBody (n + vs.length) m (vs.map (fun v => '-' :: v) ++ after) r := by
  induction vs with
  | nil => simpa using hb
  | cons v vs ih =>
    refine .old _ _ v _ r (.inl ?_) ?_
    · simp only [List.length_cons]; omega
    · have e1 : n + ((v :: vs).length : Int) - 1 = n + vs.length := by simp only [List.length_cons]; omega
      rw [e1]; exact ih

theorem body_run_new (vs after r : List Str) (n m : Int) (hm : 0 ≤ m) (hb : UnifiedBody n m after r) :
    UnifiedBody n (m + vs.length) (vs.map (fun v => '+' :: v) ++ after) r := by
  induction vs with
  | nil => simpa using hb
  | cons v vs ih =>
    refine .new _ _ v _ r (.inr ?_) ?_
    · simp only [List.length_cons]; omega
    · have e1 : m + ((v :: vs).length : Int) - 1 = m + vs.length := by simp only [List.length_cons]; omega
      rw [e1]; exact ih

theorem body_blocks (bs : List Block) (after r : List Str) (n m : Int) (hn : 0 ≤ n) (hm : 0 ≤ m) (hb : UnifiedBody n m after r) :
    UnifiedBody (n + ((bs.map (fun b => b.old.length)).sum : Nat)) (m + ((bs.map (fun b => b.new.length)).sum : Nat)) (bs.flatMap Block.clean ++ after) r := by
  induction bs with
  | nil => simpa using hb
  | cons b bs ih =>
    simp only [List.flatMap_cons, List.append_assoc, List.map_cons, List.sum_cons]
    cases b with
    | context ls =>
      have := body_run_both (ls.map Line.value) _ r _ _ (by omega) ih
      simp only [List.length_map] at this
      have e1 : ∀ (x : Int) (s : Nat), x + ((ls.length + s : Nat) : Int) = x + s + ls.length := by intro x s; omega
      simp only [Block.old, Block.new, Block.clean, e1]
      exact this
    | change o a =>
      have h1 := body_run_new (a.map Line.value) _ r _ _ (by omega) ih
      have h2 := body_run_old (o.map Line.value) _ r _ _ (by omega) h1
      simp only [List.length_map] at h2
      have e1 : ∀ (x : Int) (s : Nat), x + ((o.length + s : Nat) : Int) = x + s + o.length := by intro x s; omega
      have e2 : ∀ (x : Int) (s : Nat), x + ((a.length + s : Nat) : Int) = x + s + a.length := by intro x s; omega
      simp only [Block.old, Block.new, Block.clean, e1, e2, List.append_assoc]
      exact h2

theorem block_unchanged (k : Block) (a b : Nat) : (k.view a b).type = .Unchanged ↔ k.isChange = false := by
  cases k with
  | context ls => simp [Block.view, Block.isChange]
  | change o n =>
    simp only [Block.view, Block.isChange]
    constructor
    · intro h; split at h
      · cases h
      · split at h <;> cases h
    · intro h; cases h

theorem blocks_lines (bs : List Block) (a b : Nat) : bs.flatMap Block.clean = (blockViews a b bs).flatMap DView.unifiedLines := by
  induction bs generalizing a b with
  | nil => rfl
  | cons k bs ih =>
    simp only [List.flatMap_cons, blockViews]
    rw [ih]
    refine congrArg (· ++ _) ?_
    cases k with
    | context ls => simp [Block.clean, Block.view, DView.unifiedLines]
    | change o n =>
      unfold DView.unifiedLines
      rw [if_neg (fun h => by simpa [Block.isChange] using (block_unchanged _ _ _).1 h)]
      rfl

theorem blocks_separate (bs : List Block) (a b : Nat) (h : SeparatedBlocks bs) : AllSeparate (blockViews a b bs) := by
  induction bs generalizing a b with
  | nil => trivial
  | cons k bs ih =>
    cases bs with
    | nil => trivial
    | cons k' bs =>
      refine ⟨?_, ih _ _ h.2⟩
      have hs := h.1
      unfold DView.Separate
      cases k with
      | context ls =>
        rw [if_pos ((block_unchanged _ _ _).2 rfl)]
        cases k' with
        | context _ => exact absurd hs id
        | change o n => rw [Ne, block_unchanged]; simp [Block.isChange]
      | change o n =>
        rw [if_neg (fun h => by simpa [Block.isChange] using (block_unchanged _ _ _).1 h)]
        cases k' with
        | context _ => exact .inl rfl
        | change o' n' =>
          obtain ⟨h1, h2⟩ := hs
          exact .inr ⟨by simp [Block.view, h1], by simp [Block.view, h2]⟩

theorem blocks_fit (bs : List Block) (a b : Nat) (h : ∀ k ∈ bs, k.NonEmpty) :
    Contiguous a b (blockViews a b bs) ∧ ∀ v ∈ blockViews a b bs, v.Fresh ∧ v.SidesAgree := by
  induction bs generalizing a b with
  | nil => exact ⟨trivial, by simp [blockViews]⟩
  | cons k bs ih =>
    obtain ⟨h1, h2⟩ := ih (a + k.old.length) (b + k.new.length) (fun k hk => h k (by simp [hk]))
    have hk := h k (by simp)
    refine ⟨⟨?_, ?_, ?_⟩, ?_⟩
    · cases k <;> rfl
    · cases k <;> rfl
    · have e1 : (k.view a b).src.length = k.old.length := by cases k <;> simp [Block.view, Block.old]
      have e2 : (k.view a b).dst.length = k.new.length := by cases k <;> simp [Block.view, Block.new]
      rw [e1, e2]
      simpa using h1
    · intro v hv
      rcases List.mem_cons.1 hv with rfl | hv
      · cases k with
        | context ls =>
          refine ⟨⟨rfl, rfl, rfl, rfl⟩, rfl, ?_⟩
          simpa [Block.view, Block.NonEmpty] using hk
        | change o n =>
          refine ⟨⟨rfl, rfl, rfl, rfl⟩, ?_⟩
          unfold DView.SidesAgree
          simp only [Block.view]
          by_cases ho : o = []
          · have hn : n ≠ [] := by rcases hk with hk | hk; exact absurd ho hk; exact hk
            simp [ho, hn]
          · by_cases hn : n = []
            · simp [ho, hn]
            · simp [ho, hn]
      · exact h2 v hv

/-- A hunk whose first blocks `bs` are followed by something else. -/
theorem hunk_shown {h : UHunk} (ok : h.Ok) {bs : List Block} (hsep : SeparatedBlocks bs) (hne : ∀ k ∈ bs, k.NonEmpty) {after rest : List Str} {hs : List HView}
    {n m : Nat} (hn : h.srcCount = n + (bs.map (fun b => b.old.length)).sum) (hm : h.dstCount = m + (bs.map (fun b => b.new.length)).sum)
    (hb : UnifiedBody n m after after) (ht : UnifiedShown after hs rest) :
    UnifiedShown (h.header :: (bs.flatMap Block.clean ++ after)) (h.cutView bs :: hs) rest := by
  obtain ⟨h1, h2, h3⟩ := unifiedHead_of h ok
  refine .hunk _ _ after h.srcCount h.dstCount (h.cutView bs) hs rest h1 h2 h3 ?_ (blocks_lines bs _ _) (blocks_separate bs _ _ hsep) ?_ ht
  · have := body_blocks bs after after n m (by omega) (by omega) hb
    rw [hn, hm]
    simpa using this
  · obtain ⟨k1, k2⟩ := blocks_fit bs h.srcLine h.dstLine hne
    exact ⟨rfl, k1, k2⟩

theorem hunks_shown {ks : List UHunk} (ok : ∀ h ∈ ks, h.Ok) {after rest : List Str} {hs : List HView} (ht : UnifiedShown after hs rest) :
    UnifiedShown (ks.flatMap UHunk.clean ++ after) (ks.map UHunk.view ++ hs) rest := by
  induction ks with
  | nil => exact ht
  | cons k ks ih =>
    have hk := ok k (by simp)
    have := hunk_shown (bs := k.blocks) hk hk.separated hk.nonEmpty (n := 0) (m := 0) (by unfold UHunk.srcCount; omega) (by unfold UHunk.dstCount; omega)
      (.complete _) (ih (fun h hh => ok h (by simp [hh])))
    simp only [List.flatMap_cons, UHunk.clean, List.append_assoc, List.cons_append, List.map_cons]
    exact this

/-- Lines at which hunks end, whatever stands before. -/
def Barrier (next : List Str) : Prop :=
  ∀ l, next.head? = some l → l.head? ≠ some ' ' ∧ l.head? ≠ some '-' ∧ l.head? ≠ some '+' ∧ ¬ ∃ n m, HunkHeaderLine l n m

theorem body_barrier {n m : Int} {ls r next : List Str} (h : UnifiedBody n m ls r) (hb : Barrier next) : UnifiedBody n m (ls ++ next) (r ++ next) := by
  induction h with
  | complete ls => exact .complete _
  | other n m ls h =>
    refine .other _ _ _ (fun l hl => ?_)
    cases ls with
    | nil => obtain ⟨h1, h2, h3, _⟩ := hb l hl; exact ⟨h1, h2, h3⟩
    | cons x ls => exact h l hl
  | both n m t ls rest h1 _ ih => exact .both _ _ _ _ _ h1 ih
  | old n m t ls rest h1 _ ih => exact .old _ _ _ _ _ h1 ih
  | new n m t ls rest h1 _ ih => exact .new _ _ _ _ _ h1 ih

theorem shown_barrier {ls r next : List Str} {hs : List HView} (h : UnifiedShown ls hs r) (hb : Barrier next) : UnifiedShown (ls ++ next) hs (r ++ next) := by
  induction h with
  | stop ls h =>
    refine .stop _ (fun l hl => ?_)
    cases ls with
    | nil => exact (hb l hl).2.2.2
    | cons x ls => exact h l hl
  | skipped l ls n m hs rest h1 h2 _ ih => exact .skipped _ _ n m _ _ h1 h2 ih
  | hunk l ls after n m h hs rest h1 h2 h3 h4 h5 h6 h7 _ ih =>
    have e : l :: (ls ++ after) ++ next = l :: (ls ++ (after ++ next)) := by simp
    rw [e]
    refine .hunk l ls (after ++ next) n m h hs _ h1 h2 h3 ?_ h5 h6 h7 ih
    have := body_barrier h4 hb
    rwa [List.append_assoc] at this

/-- What is shown has been read. -/
theorem shown_reads {ls r : List Str} {hs : List HView} (h : UnifiedShown ls hs r) (hne : [] ∉ ls) : UnifiedHunks ls (some r) := by
  induction h with
  | stop ls h => exact .stop _ h
  | skipped l ls n m hs rest h1 h2 _ ih => exact .skipped _ _ n m _ h1 h2 (ih (fun h => hne (List.mem_cons_of_mem _ h)))
  | hunk l ls after n m h hs rest h1 h2 h3 h4 h5 h6 h7 _ ih =>
    have up : ∀ x ∈ after, x ∈ l :: (ls ++ after) := fun x hx => List.mem_cons_of_mem _ (List.mem_append_right _ hx)
    refine .hunk l _ after n m _ (unifiedHead_line h1) h2 h3 h4 ?_ (ih (fun h => hne (up _ h)))
    intro e
    exact hne (up _ (List.mem_of_mem_head? e))

/-- Something is always shown. -/
theorem shown_total (ls : List Str) (hs : AllShort ls) (hne : [] ∉ ls) : ∃ hv r, UnifiedShown ls hv r := by
  let st : PState := { lines := ls, rest := ls, heap := { cell := fun _ => Diff.new 0 0, next := 0 }, cur := {}, models := [], single := false, malformed := false }
  rcases unifiedHunks_reads st hs with ⟨st', h1, _⟩ | ⟨_, h2⟩
  · have := unifiedHunks_shown _ _ _ h1
    obtain ⟨hv, h3, _⟩ := this.shown st.heap ((start_found _ st.heap ls).start (st' := st) rfl rfl empty_blank)
    exact ⟨hv, _, h3⟩
  · exact absurd (unifiedHunks_none h2 rfl) hne

theorem ended_mem {l : Str} {ts : List Str} (h : l ∈ ended ts) : ∃ t ∈ ts, l = t ++ ['\n'] := by
  obtain ⟨t, h1, rfl⟩ := List.mem_map.1 h
  exact ⟨t, h1, rfl⟩

theorem between_notFirst {t : Str} (h : BetweenLine t) : ¬ UnifiedHeaderLine "--- " (t ++ ['\n']) := by
  rw [← unifiedHeader1_lang, ← Re.full_none]
  exact unifiedHeader1_none (not_prefix_newline (by decide) h.2.1)

theorem showsFiles_skip {o : FileForm} {H : List Str → List HView → List Str → Prop} {pre ls : List Str} {ms : List MView} (hp : ∀ x ∈ pre, ¬ o.first x)
    (h : ShowsFiles o H ls ms) : ShowsFiles o H (pre ++ ls) ms := by
  have app : ∀ pre' : List Str, (∀ x ∈ pre', ¬ o.first x) → ∀ x ∈ pre ++ pre', ¬ o.first x := by
    intro pre' h' x hx
    rcases List.mem_append.1 hx with q | q
    · exact hp x q
    · exact h' x q
  cases h with
  | finished ls h1 => exact .finished _ (app _ h1)
  | abandoned pre' l l2 ls h1 h2 h3 h4 => rw [← List.append_assoc]; exact .abandoned _ l l2 ls (app _ h1) h2 h3 h4
  | file pre' hdr ls rest f hs ms h1 h2 h3 h4 => rw [← List.append_assoc]; exact .file _ hdr ls rest f hs ms (app _ h1) h2 h3 h4

theorem reading_skip {o : Opening} {H : List Str → Option (List Str) → Prop} {pre ls : List Str} {stops : List (List Str)} (hp : ∀ x ∈ pre, ¬ o.first x)
    (h : Reading o H ls stops .finished) : Reading o H (pre ++ ls) stops .finished := by
  have app : ∀ pre' : List Str, (∀ x ∈ pre', ¬ o.first x) → ∀ x ∈ pre ++ pre', ¬ o.first x := by
    intro pre' h' x hx
    rcases List.mem_append.1 hx with q | q
    · exact hp x q
    · exact h' x q
  cases h with
  | finished ls h1 => exact .finished _ (app _ h1)
  | two pre' l l2 ls rest S stops out h0 h1 h2 h3 h4 h5 => rw [← List.append_assoc]; exact .two _ l l2 ls rest S stops _ h0 (app _ h1) h2 h3 h4 h5
  | one pre' l ls rest stops out h0 h1 h2 h3 h4 => rw [← List.append_assoc]; exact .one _ l ls rest stops _ h0 (app _ h1) h2 h3 h4

/-- The lines of a file after folding. -/
def Spec.PartFile.clean (p : PartFile) : List Str := p.file.clean ++ ended p.mess

theorem PartFile.cleans {p : PartFile} (ok : p.file.Ok) (hm : ∀ t ∈ p.mess, BetweenLine t) : Cleans p.render p.clean := by
  refine Cleans.append (UFile.cleans p.file ok) (Cleans.id _ (fun l hl => ?_))
  obtain ⟨t, ht, rfl⟩ := ended_mem hl
  exact not_prefix_newline (by decide) (hm t ht).2.2.2

/-- The files of a damaged diff from one of them on. -/
structure Onward (ps : List PartFile) (tr : List Str) : Prop where
  files : ∀ p ∈ ps, p.file.Ok
  mess : ∀ p ∈ ps, ∀ t ∈ p.mess, BetweenLine t
  announced : ∀ as p q qs, ps = as ++ p :: q :: qs → p.mess ≠ [] → ∃ t ts, q.file.preamble = t :: ts ∧ (str "Index: " <+: t ∨ str "diff " <+: t)
  later : ∀ p qs, ps = p :: qs → ∀ q ∈ qs, ∀ t ts, q.file.preamble = t :: ts → SeparatorLine t
  trailer : (∀ t ∈ tr, BetweenLine t) ∧ ∀ t ts, tr = t :: ts → SeparatorLine t
  last : ∀ as p, ps = as ++ [p] → p.mess ≠ [] → tr = []

theorem Onward.tail {p : PartFile} {ps : List PartFile} {tr : List Str} (h : Onward (p :: ps) tr) : Onward ps tr where
  files q hq := h.files q (List.mem_cons_of_mem _ hq)
  mess q hq := h.mess q (List.mem_cons_of_mem _ hq)
  announced as a q qs e := h.announced (p :: as) a q qs (by rw [e]; rfl)
  later a qs e q hq := h.later p ps rfl q (by rw [e]; exact List.mem_cons_of_mem _ hq)
  trailer := h.trailer
  last as a e := h.last (p :: as) a (by rw [e]; rfl)

/-- What follows the first file. -/
structure Following (g : Generator) (mess : List Str) (next : List Str) : Prop where
  noHunk : ∀ l, next.head? = some l → ¬ ∃ n m, HunkHeaderLine l n m
  fine : ¬ BadStop (unifiedOpening g) next
  barrier : mess ≠ [] → Barrier next

theorem hunkHeader_at {l : Str} {n m : Nat} (h : HunkHeaderLine l n m) : str "@@ -" <+: l := by
  obtain ⟨a, b, na, nb, f, rfl, _⟩ := h
  simp only [List.append_assoc]
  exact List.prefix_append _ _

theorem separator_line {t : Str} (h : SeparatorLine t) (l : Str) (hl : l = t ++ ['\n']) :
    (¬ ∃ n m, HunkHeaderLine l n m) ∧ (str "Index: " <+: l ∨ str "diff " <+: l ∨ str "-- " <+: l) := by
  have h2 : str "Index: " <+: l ∨ str "diff " <+: l ∨ str "-- " <+: l := by
    rw [hl]
    rcases h with h | h | h
    · exact .inl (h.trans (List.prefix_append _ _))
    · exact .inr (.inl (h.trans (List.prefix_append _ _)))
    · exact .inr (.inr (h.trans (List.prefix_append _ _)))
  refine ⟨?_, h2⟩
  rintro ⟨n, m, hh⟩
  obtain ⟨s, e⟩ := hunkHeader_at hh
  subst e
  rcases h2 with h | h | h
  · obtain ⟨s', e⟩ := h; simp [str] at e
  · obtain ⟨s', e⟩ := h; simp [str] at e
  · obtain ⟨s', e⟩ := h; simp [str] at e

theorem following {g : Generator} (hg : g ≠ .Perforce) {p : PartFile} {ps : List PartFile} {tr : List Str} (h : Onward (p :: ps) tr) :
    Following g p.mess (ps.flatMap PartFile.clean ++ ended tr) := by
  have ho : (unifiedOpening g).first = UnifiedHeaderLine "--- " := by cases g <;> first | rfl | exact absurd rfl hg
  have sep : ∀ (t : Str) (rest : List Str), SeparatorLine t → (p.mess ≠ [] → str "Index: " <+: t ∨ str "diff " <+: t) →
      Following g p.mess ((t ++ ['\n']) :: rest) := by
    intro t rest ht ha
    obtain ⟨h1, h2⟩ := separator_line ht _ rfl
    refine ⟨fun l hl => ?_, ?_, fun hm l hl => ?_⟩
    · cases hl; exact h1
    · rintro ⟨l, ls, e, _, k1, k2, k3⟩
      cases e
      rcases h2 with q | q | q
      · exact k1 q
      · exact k2 q
      · exact k3 q
    · cases hl
      have : (t ++ ['\n']).head? = some 'I' ∨ (t ++ ['\n']).head? = some 'd' := by
        rcases ha hm with ⟨s, rfl⟩ | ⟨s, rfl⟩
        · exact .inl rfl
        · exact .inr rfl
      refine ⟨?_, ?_, ?_, h1⟩ <;> rcases this with e | e <;> rw [e] <;> decide
  cases ps with
  | nil =>
    simp only [List.flatMap_nil, List.nil_append]
    cases tr with
    | nil => exact ⟨by simp [ended], (by rintro ⟨l, ls, e, _⟩; cases e), (by intro _ l hl; cases hl)⟩
    | cons t ts => exact sep t _ (h.trailer.2 t ts rfl) (fun hm => by have := h.last [] p rfl hm; cases this)
  | cons q qs =>
    cases hq : q.file.preamble with
    | nil =>
      have e : (q :: qs).flatMap PartFile.clean ++ ended tr = (str "--- " ++ q.file.src.render) :: ((str "+++ " ++ q.file.dst.render) ::
          (q.file.hunks.flatMap UHunk.clean ++ (ended q.mess ++ (qs.flatMap PartFile.clean ++ ended tr)))) := by
        simp [PartFile.clean, UFile.clean, hq]
      rw [e]
      have hf : UnifiedHeaderLine "--- " (str "--- " ++ q.file.src.render) := by
        obtain ⟨c, hc, _⟩ := unifiedHeader1_match q.file.src (h.files q (by simp)).src
        rw [← unifiedHeader1_lang, ← Re.full_isSome, hc]; rfl
      refine ⟨fun l hl => ?_, ?_, fun hm => ?_⟩
      · cases hl
        rintro ⟨n, m, hh⟩
        obtain ⟨s, e⟩ := hunkHeader_at hh
        simp [str] at e
      · rintro ⟨l, ls, e, k, _⟩
        cases e
        exact k (by rw [ho]; exact hf)
      · obtain ⟨t, ts, e, _⟩ := h.announced [] p q qs rfl hm
        rw [hq] at e; cases e
    | cons t ts =>
      have e : (q :: qs).flatMap PartFile.clean ++ ended tr = (t ++ ['\n']) :: (ts.map (· ++ ['\n']) ++ ((str "--- " ++ q.file.src.render) :: ((str "+++ " ++ q.file.dst.render) ::
          (q.file.hunks.flatMap UHunk.clean ++ (ended q.mess ++ (qs.flatMap PartFile.clean ++ ended tr)))))) := by
        simp [PartFile.clean, UFile.clean, hq]
      rw [e]
      refine sep t _ (h.later p _ rfl q (by simp) t ts hq) (fun hm => ?_)
      obtain ⟨t', ts', e, k⟩ := h.announced [] p q qs rfl hm
      rw [hq] at e; cases e; exact k

theorem file_header (unesc : Str → Str) (g : Generator) (hg : g ≠ .Perforce) (f : UFile) (ok : f.Ok) :
    (unifiedForm unesc g).header [str "--- " ++ f.src.render, str "+++ " ++ f.dst.render] (f.names unesc) := by
  obtain ⟨c1, m1, a1, a2, _⟩ := unifiedHeader1_match f.src ok.src
  obtain ⟨c2, m2, b1, b2, _⟩ := unifiedHeader2_match f.dst ok.dst
  have h1 := (stamped_full1 m1).1
  have h2 := (stamped_full2 m2).1
  rw [a1, a2] at h1
  rw [b1, b2] at h2
  cases g with
  | Perforce => exact absurd rfl hg
  | Diff => exact ⟨_, _, _, _, rfl, h1, h2, rfl, rfl⟩
  | CVSDiff => exact ⟨_, _, _, _, rfl, h1, h2, rfl, rfl⟩

theorem shown_nil {hs : List HView} {r : List Str} (h : UnifiedShown [] hs r) : hs = [] ∧ r = [] := by
  cases h; exact ⟨rfl, rfl⟩

theorem files_shown (unesc : Str → Str) {g : Generator} (hg : g ≠ .Perforce) {tr : List Str} (more : PartFile → List HView) (left : PartFile → List Str) :
    ∀ ps : List PartFile, Onward ps tr → (∀ p ∈ ps, UnifiedShown (ended p.mess) (more p) (left p)) → [] ∉ ps.flatMap PartFile.clean ++ ended tr →
      ShowsFiles (unifiedForm unesc g) UnifiedShown (ps.flatMap PartFile.clean ++ ended tr)
        (ps.flatMap (fun p => (p.file.names unesc).shown (p.file.hunks.map UHunk.view ++ more p))) ∧
      ∃ stops, Reading (unifiedOpening g) UnifiedHunks (ps.flatMap PartFile.clean ++ ended tr) stops .finished ∧
        ((∃ rest ∈ stops, BadStop (unifiedOpening g) rest) ↔ ∃ p ∈ ps, Complaint (left p)) := by
  have ho : (unifiedOpening g).first = UnifiedHeaderLine "--- " := by cases g <;> first | rfl | exact absurd rfl hg
  have ho2 : (unifiedOpening g).second = some (UnifiedHeaderLine "+++ ") := by cases g <;> first | rfl | exact absurd rfl hg
  have hu : (unifiedForm unesc g).first = UnifiedHeaderLine "--- " := by cases g <;> first | rfl | exact absurd rfl hg
  intro ps
  induction ps with
  | nil =>
    intro h _ _
    have hn : ∀ l ∈ ended tr, ¬ UnifiedHeaderLine "--- " l := by
      intro l hl
      obtain ⟨t, ht, rfl⟩ := ended_mem hl
      exact between_notFirst (h.trailer.1 t ht)
    exact ⟨.finished _ (by rw [hu]; exact hn), [], .finished _ (by rw [ho]; exact hn), by simp⟩
  | cons p ps ih =>
    intro h hs hne
    have hok := h.files p (by simp)
    have fw := following hg h
    have hp := hs p (by simp)
    have e : (p :: ps).flatMap PartFile.clean ++ ended tr = ended p.file.preamble ++ ([str "--- " ++ p.file.src.render, str "+++ " ++ p.file.dst.render] ++
        (p.file.hunks.flatMap UHunk.clean ++ (ended p.mess ++ (ps.flatMap PartFile.clean ++ ended tr)))) := by
      simp [PartFile.clean, UFile.clean, ended]
    have sub : ∀ x ∈ p.file.hunks.flatMap UHunk.clean ++ (ended p.mess ++ (ps.flatMap PartFile.clean ++ ended tr)), x ∈ (p :: ps).flatMap PartFile.clean ++ ended tr := by
      intro x hx; rw [e]; exact List.mem_append_right _ (List.mem_append_right _ hx)
    obtain ⟨i1, stops, i2, i3⟩ := ih h.tail (fun q hq => hs q (List.mem_cons_of_mem _ hq)) (fun hx => hne (sub _ (List.mem_append_right _ (List.mem_append_right _ hx))))
    generalize ps.flatMap PartFile.clean ++ ended tr = next at *
    have tail : UnifiedShown (ended p.mess ++ next) (more p) (left p ++ next) := by
      by_cases hm : p.mess = []
      · rw [hm] at hp
        obtain ⟨e1, e2⟩ := shown_nil hp
        rw [hm, e1, e2]
        exact .stop _ fw.noHunk
      · exact shown_barrier hp (fw.barrier hm)
    have all := hunks_shown hok.hunks tail
    have hpre : ∀ x ∈ ended p.file.preamble, ¬ UnifiedHeaderLine "--- " x := by
      intro l hl
      obtain ⟨t, ht, rfl⟩ := ended_mem hl
      exact between_notFirst (hok.between t ht)
    have hleft : ∀ x ∈ left p, ¬ UnifiedHeaderLine "--- " x := by
      intro l hl
      obtain ⟨t, ht, rfl⟩ := ended_mem ((unifiedShown_facts hp).1 l hl)
      exact between_notFirst (h.mess p (by simp) t ht)
    have hf1 : UnifiedHeaderLine "--- " (str "--- " ++ p.file.src.render) := by
      obtain ⟨c, hc, _⟩ := unifiedHeader1_match p.file.src hok.src
      rw [← unifiedHeader1_lang, ← Re.full_isSome, hc]; rfl
    have hf2 : UnifiedHeaderLine "+++ " (str "+++ " ++ p.file.dst.render) := by
      obtain ⟨c, hc, _⟩ := unifiedHeader2_match p.file.dst hok.dst
      rw [← unifiedHeader2_lang, ← Re.full_isSome, hc]; rfl
    rw [e]
    refine ⟨?_, (left p ++ next) :: stops, ?_, ?_⟩
    · exact .file _ _ _ (left p ++ next) _ _ _ (by rw [hu]; exact hpre) (file_header unesc g hg p.file hok) all (showsFiles_skip (by rw [hu]; exact hleft) i1)
    · exact .two _ _ _ _ (left p ++ next) _ stops .finished ho2 (by rw [ho]; exact hpre) (by rw [ho]; exact hf1) hf2
        (shown_reads all (fun hx => hne (sub _ hx))) (reading_skip (by rw [ho]; exact hleft) i2)
    · have hb : BadStop (unifiedOpening g) (left p ++ next) ↔ Complaint (left p) := by
        cases hl : left p with
        | nil =>
          constructor
          · intro k; exact absurd k fw.fine
          · rintro ⟨_, _, e, _⟩; cases e
        | cons l ls =>
          constructor
          · rintro ⟨x, xs, e, _, k1, k2, k3⟩
            cases e
            exact ⟨l, ls, rfl, k1, k2, k3⟩
          · rintro ⟨x, xs, e, k1, k2, k3⟩
            cases e
            exact ⟨l, _, rfl, by rw [ho]; exact hleft l (by rw [hl]; simp), k1, k2, k3⟩
      simp only [List.mem_cons, exists_eq_or_imp, hb, i3]

end KompareDiff2
