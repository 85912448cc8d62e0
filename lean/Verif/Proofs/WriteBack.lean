import Verif.Spec.WriteBack
import Verif.Spec.AnyText
import Verif.Proofs.Recreate
import Verif.Props.AnyText
import Verif.Props.Recreate
/-
What is shown of a text is writable, if it is complete.
-/
namespace KompareDiff2
open Spec

/-- At most one newline, at the end. -/
def OneLine (l : Str) : Prop := ∃ t, '\n' ∉ t ∧ (l = t ∨ l = t ++ ['\n'])

theorem lineList_one {ls : List Str} (h : LineList ls) : ∀ l ∈ ls, OneLine l := by
  induction h with
  | nil => simp
  | last l _ hn => intro x hx; simp only [List.mem_singleton] at hx; exact ⟨l, hn, .inl hx⟩
  | cons t ls hn _ ih =>
    intro x hx
    rcases List.mem_cons.1 hx with rfl | hx
    · exact ⟨t, hn, .inr rfl⟩
    · exact ih x hx

theorem cleaned_one {ls out : List Str} (hl : ∀ l ∈ ls, OneLine l) (h : Cleaned ls out) : ∀ l ∈ out, OneLine l := by
  obtain ⟨gs, h1, rfl, h2, h3⟩ := h
  intro o ho
  obtain ⟨i, hi⟩ := List.getElem?_of_mem ho
  have hlt := (List.getElem?_eq_some_iff.1 hi).1
  obtain ⟨g, hg⟩ : ∃ g, gs[i]? = some g := ⟨_, List.getElem?_eq_getElem (by omega)⟩
  have k := h3 i g o hg hi
  have hone : OneLine g.line := hl _ (List.mem_flatMap.2 ⟨g, List.mem_of_getElem? hg, by simp [Remarked.raw]⟩)
  have hnil : OneLine [] := ⟨[], by simp, .inl rfl⟩
  cases hr : g.remarks with
  | nil => rw [k.plain hr]; exact hone
  | cons r rs =>
    cases rs with
    | nil =>
      have hl : g.remarks.length = 1 := by rw [hr]; rfl
      by_cases hn : '\n' ∈ g.line
      · obtain ⟨t, u, e, ht⟩ := first_newline hn
        rw [(k.cut hl).1 t u ht e]
        exact ⟨t, ht, .inl rfl⟩
      · rw [(k.cut hl).2 hn]; exact hnil
    | cons r' rs => rw [k.lost (by rw [hr]; simp)]; exact hnil

theorem OneLine.mid {a t : Str} (h : OneLine (a ++ t ++ ['\n'])) : '\n' ∉ t := by
  obtain ⟨u, hu, e | e⟩ := h
  · rw [← e] at hu; simp at hu
  · have := List.append_inj_left' e rfl
    rw [← this] at hu
    simp at hu
    exact hu.2

theorem OneLine.tail {c : Char} {t : Str} (h : OneLine (c :: (t ++ ['\n']))) : '\n' ∉ t := OneLine.mid (a := [c]) h

theorem stamped_one {pre : String} {l name time : Str} (h : StampedLine pre l name time) (ho : OneLine l) : '\n' ∉ time ∧ '\t' ∉ time := by
  obtain ⟨tail, rfl, _, _, h⟩ := h
  rcases h with ⟨_, rfl⟩ | ⟨more, rfl, _, ht, _⟩
  · simp
  · refine ⟨?_, ht⟩
    have := ho.mid
    simp at this
    exact this.1

theorem separate_apart {ds : List DView} (h : AllSeparate ds) : AllApart ds := by
  induction ds with
  | nil => trivial
  | cons d ds ih =>
    cases ds with
    | nil => trivial
    | cons d' ds =>
      obtain ⟨h1, h2⟩ := h
      refine ⟨?_, ih h2⟩
      unfold DView.Separate at h1
      refine ⟨fun e => by rw [if_pos e] at h1; exact h1, fun e e' => ?_⟩
      rw [if_neg e] at h1
      rcases h1 with h1 | h1
      · exact absurd h1 e'
      · exact h1

/-- What every hunk of a unified diff satisfies. -/
structure HunkFacts (lines : List Str) (h : HView) : Prop where
  function : '\n' ∉ h.function
  low : 0 ≤ h.srcLine ∧ 0 ≤ h.dstLine
  separate : AllSeparate h.diffs
  ok : h.UnifiedOk
  lines : ∀ x ∈ h.diffs.flatMap DView.unifiedLines, x ∈ lines

theorem HunkFacts.mono {l l' : List Str} {h : HView} (k : HunkFacts l h) (s : ∀ x ∈ l, x ∈ l') : HunkFacts l' h :=
  ⟨k.function, k.low, k.separate, k.ok, fun x hx => s x (k.lines x hx)⟩

theorem number_nonneg (d : Str) : 0 ≤ number d := by unfold number; split <;> omega

theorem unifiedShown_facts {ls rest : List Str} {hs : List HView} (h : UnifiedShown ls hs rest) :
    (∀ x ∈ rest, x ∈ ls) ∧ ∀ k ∈ hs, HunkFacts ls k := by
  induction h with
  | stop ls _ => exact ⟨fun x hx => hx, by simp⟩
  | skipped l ls n m hs rest _ _ _ ih =>
    exact ⟨fun x hx => List.mem_cons_of_mem _ (ih.1 x hx), fun k hk => (ih.2 k hk).mono (fun x hx => List.mem_cons_of_mem _ hx)⟩
  | hunk l ls after n m h hs rest hd _ _ _ he hsep hok _ ih =>
    have up : ∀ x ∈ after, x ∈ l :: (ls ++ after) := fun x hx => List.mem_cons_of_mem _ (List.mem_append_right _ hx)
    refine ⟨fun x hx => up x (ih.1 x hx), ?_⟩
    intro k hk
    rcases List.mem_cons.1 hk with rfl | hk
    · obtain ⟨a, b, na, nb, t, _, _, _, ht, _, _, hf, hx, hy⟩ := hd
      have h1 := number_nonneg a
      have h2 := number_nonneg b
      refine ⟨?_, ?_, hsep, hok, ?_⟩
      · rw [hf]
        unfold afterSpace
        split
        · exact fun hm => ht (List.mem_of_mem_drop hm)
        · exact ht
      · constructor
        · rw [hx]; split <;> omega
        · rw [hy]; split <;> omega
      · intro x hx
        rw [← he] at hx
        exact List.mem_cons_of_mem _ (List.mem_append_left _ hx)
    · exact (ih.2 k hk).mono up

/-- Every file shown comes from a header and hunks in the lines. -/
theorem showsFiles_mem {o : FileForm} {Hunks : List Str → List HView → List Str → Prop} {lines : List Str} {ms : List MView}
    (hrest : ∀ ls hs rest, Hunks ls hs rest → ∀ x ∈ rest, x ∈ ls) (h : ShowsFiles o Hunks lines ms) :
    ∀ v ∈ ms, ∃ hdr f ls hs rest, o.header hdr f ∧ Hunks ls hs rest ∧ v = f.view hs ∧ changesOf hs ≠ [] ∧ (∀ x ∈ hdr, x ∈ lines) ∧
      ∀ x ∈ ls, x ∈ lines := by
  induction h with
  | finished ls _ => simp
  | abandoned => simp
  | file pre hdr ls rest f hs ms _ hh hk _ ih =>
    intro v hv
    rcases List.mem_append.1 hv with hv | hv
    · unfold FileNames.shown at hv
      split at hv
      · simp at hv
      · rename_i hne
        simp only [List.mem_singleton] at hv
        exact ⟨hdr, f, ls, hs, rest, hh, hk, hv, hne, by simp_all, by simp_all⟩
    · obtain ⟨hdr', f', ls', hs', rest', h1, h2, h3, h4, h5, h6⟩ := ih v hv
      have up : ∀ x ∈ rest, x ∈ pre ++ (hdr ++ ls) := fun x hx =>
        List.mem_append_right _ (List.mem_append_right _ (hrest _ _ _ hk x hx))
      exact ⟨hdr', f', ls', hs', rest', h1, h2, h3, h4, fun x hx => up x (h5 x hx), fun x hx => up x (h6 x hx)⟩

theorem perforce_stamps {hdr : List Str} {f : FileNames} (h : perforceForm.header hdr f) : f.sourceTimestamp = [] := by
  obtain ⟨l, s, t, _, _, _, _, h, _⟩ := h
  exact h

theorem markedRun_no {c : Char} {ls ts rest : List Str} (h : MarkedRun c ls ts rest) : ∀ t ∈ ts, '\n' ∉ t := h.2.1

theorem paired_no {os ns : List Str} {vs : List DView} (h : Paired os ns vs) : ∀ v ∈ vs, ∀ l ∈ v.src ++ v.dst, '\n' ∉ l := by
  induction h with
  | done => simp
  | lost => simp
  | removed os os' ns v vs hr _ _ hd _ ih =>
    intro w hw
    rcases List.mem_cons.1 hw with rfl | hw
    · intro l hl
      rw [hd, List.append_nil] at hl
      exact hr.2.1 l hl
    · exact ih w hw
  | added os ns ns' v vs _ hr _ _ hd _ ih =>
    intro w hw
    rcases List.mem_cons.1 hw with rfl | hw
    · intro l hl
      rw [hd, List.nil_append] at hl
      exact hr.2.1 l hl
    · exact ih w hw
  | unchanged os os' ns ns' v vs hr _ _ hd _ ih =>
    intro w hw
    rcases List.mem_cons.1 hw with rfl | hw
    · intro l hl
      rw [hd] at hl
      obtain ⟨oc, nc, _, _, hno, ht, _⟩ := hr
      have hl : l ∈ w.src := by simpa using hl
      rw [ht] at hl
      rcases List.mem_append.1 hl with hl | hl
      · exact hno l (List.mem_append_right _ hl)
      · exact hno l (List.mem_append_left _ (List.mem_of_mem_drop hl))
    · exact ih w hw
  | changed os os' ns ns' v vs _ _ hr hr' _ _ _ ih =>
    intro w hw
    rcases List.mem_cons.1 hw with rfl | hw
    · intro l hl
      rcases List.mem_append.1 hl with hl | hl
      · exact hr.2.1 l hl
      · exact hr'.2.1 l hl
    · exact ih w hw

theorem contextShown_facts {ls rest : List Str} {hs : List HView} (h : ContextShown ls hs rest) :
    (∀ x ∈ rest, x ∈ ls) ∧ ∀ k ∈ hs, k.ContextOk ∧ ∀ v ∈ k.diffs, ∀ l ∈ v.src ++ v.dst, '\n' ∉ l := by
  induction h with
  | stop ls _ => exact ⟨fun x hx => hx, by simp⟩
  | lone l ls _ _ => exact ⟨fun x hx => List.mem_cons_of_mem _ hx, by simp⟩
  | dropped l l2 l3 old more hs rest _ _ _ _ _ _ ih =>
    refine ⟨fun x hx => ?_, ih.2⟩
    have := ih.1 x hx
    simp only [List.cons_append, List.mem_cons, List.mem_append] at this ⊢
    exact .inr (.inr (.inr this))
  | hunk l l2 l3 old new after h hs rest _ _ _ _ _ _ _ hp hok _ ih =>
    refine ⟨fun x hx => ?_, ?_⟩
    · have := ih.1 x hx
      simp only [List.cons_append, List.mem_cons, List.mem_append]
      exact .inr (.inr (.inr (.inr (.inr this))))
    · intro k hk
      rcases List.mem_cons.1 hk with rfl | hk
      · exact ⟨hok, paired_no hp⟩
      · exact ih.2 k hk

theorem normal_stamps {unesc : Str → Str} {g : Generator} {hdr : List Str} {f : FileNames} (h : (normalForm unesc g).header hdr f) :
    f.sourceTimestamp = [] := by
  cases g with
  | Perforce => exact perforce_stamps h
  | CVSDiff => obtain ⟨l, _, _, _, h, _⟩ := h; exact h
  | Diff => obtain ⟨l, s, t, _, _, _, _, h, _⟩ := h; exact h

theorem normalFiles_mem {unesc : Str → Str} {g : Generator} {lines : List Str} {ms : List MView} (h : NormalFiles unesc g lines ms) :
    ∀ v ∈ ms, ∃ (f : FileNames) (hs : List HView), v = f.view hs ∧ f.sourceTimestamp = [] ∧ changesOf hs ≠ [] ∧ ∃ ls rest, NormalShown ls hs rest := by
  obtain ⟨fs, h1, h⟩ := h
  have shown : ∀ (f : FileNames) (hs : List HView), ∀ v ∈ f.shown hs, v = f.view hs ∧ changesOf hs ≠ [] := by
    intro f hs v hv
    unfold FileNames.shown at hv
    split at hv
    · simp at hv
    · rename_i hne
      exact ⟨by simpa using hv, hne⟩
  have k : ∀ v ∈ fs, ∃ (f : FileNames) (hs : List HView), v = f.view hs ∧ f.sourceTimestamp = [] ∧ changesOf hs ≠ [] ∧ ∃ ls rest, NormalShown ls hs rest := by
    clear h
    induction h1 with
    | finished ls _ => simp
    | abandoned => simp
    | file pre hdr ls rest f hs ms _ hh hk _ ih =>
      intro v hv
      rcases List.mem_append.1 hv with hv | hv
      · exact ⟨f, hs, (shown f hs v hv).1, normal_stamps hh, (shown f hs v hv).2, ls, rest, hk⟩
      · exact ih v hv
  rcases h with ⟨_, rfl⟩ | ⟨_, hs, rest, hh, rfl⟩
  · exact k
  · intro v hv
    rcases List.mem_append.1 hv with hv | hv
    · exact k v hv
    · exact ⟨nameless, hs, (shown _ hs v hv).1, rfl, (shown _ hs v hv).2, lines, rest, hh⟩

theorem normalShown_no {ls rest : List Str} {hs : List HView} (h : NormalShown ls hs rest) : ∀ k ∈ hs, ∀ d ∈ k.diffs, ∀ l ∈ d.src ++ d.dst, '\n' ∉ l := by
  induction h with
  | stop => simp
  | hunk l ls after h v hs rest _ hb _ hd _ _ ih =>
    intro k hk
    rcases List.mem_cons.1 hk with rfl | hk
    · rw [hd]
      intro d hd x hx
      rw [List.mem_singleton.1 hd] at hx
      cases hb with
      | insert _ _ e r => rw [e, List.nil_append] at hx; exact r.2.1 x hx
      | delete _ _ r e => rw [e, List.append_nil] at hx; exact r.2.1 x hx
      | change _ _ _ r r' =>
        rcases List.mem_append.1 hx with hx | hx
        · exact r.2.1 x hx
        · exact r'.2.1 x hx
      | undivided _ _ r e _ => rw [e, List.append_nil] at hx; exact r.2.1 x hx
    · exact ih k hk

theorem unified_own {f : FileNames} {hs : List HView} {lines : List Str} (hk : ∀ k ∈ hs, HunkFacts lines k) : (f.view hs).ownHunks = hs := by
  unfold MView.ownHunks
  rw [List.filter_eq_self.2]
  · rfl
  · intro k hk'
    simp [(hk k hk').ok.1]

/-- Hunks with whole lines. -/
theorem unified_hunks {f : FileNames} {hs : List HView} {lines : List Str} (hl : ∀ l ∈ lines, OneLine l) (hk : ∀ k ∈ hs, HunkFacts lines k)
    (hc : (f.view hs).WholeLines) : ∀ k ∈ (f.view hs).ownHunks, k.Writable := by
  rw [unified_own hk]
  intro k hkm
  have kf := hk k hkm
  obtain ⟨n1, n2, n3, n4⟩ := hc.numbers k hkm
  refine ⟨?_, kf.ok.2.1, separate_apart kf.separate, kf.function, ⟨kf.low.1, n1, n3⟩, ⟨kf.low.2, n2, n4⟩⟩
  intro d hd
  have sd := (kf.ok.2.2 d hd).2
  refine ⟨?_, ?_⟩
  · unfold DView.SidesAgree at sd
    cases e : d.type <;> rw [e] at sd <;> simp only at sd ⊢
    · exact sd
    · exact sd
    · exact sd
    · exact ⟨sd.2, sd.1.symm⟩
  · intro l hlm
    obtain ⟨t, rfl, hlen⟩ := hc.lines k hkm d hd l hlm
    refine ⟨t, rfl, ?_, hlen⟩
    have hin : ∃ c, (c :: (t ++ ['\n'])) ∈ d.unifiedLines := by
      unfold DView.unifiedLines
      split
      · rename_i hu
        unfold DView.SidesAgree at sd
        rw [hu] at sd
        simp only at sd
        refine ⟨' ', ?_⟩
        rw [← sd.1] at hlm
        exact List.mem_map.2 ⟨_, by simpa using hlm, rfl⟩
      · rcases List.mem_append.1 hlm with hlm | hlm
        · exact ⟨'-', List.mem_append_left _ (List.mem_map.2 ⟨_, hlm, rfl⟩)⟩
        · exact ⟨'+', List.mem_append_right _ (List.mem_map.2 ⟨_, hlm, rfl⟩)⟩
    obtain ⟨c, hin⟩ := hin
    exact (hl _ (kf.lines _ (List.mem_flatMap.2 ⟨d, hd, hin⟩))).tail

/-- What is known of a file shown: it comes from a unified diff, unless its lines are not whole or it has no time stamp and empty differences. -/
theorem textShows_unified {unesc : Str → Str} {text : Str} {ms : List MView} (h : TextShows unesc text ms) {v : MView} (hv : v ∈ ms)
    (hc : v.WholeLines) (hn : v.sourceTimestamp = [] → ∀ k ∈ v.hunks, ∀ d ∈ k.diffs, d.src ++ d.dst ≠ []) :
    (∀ k ∈ v.ownHunks, k.Writable) ∧ v.ownHunks = v.hunks ∧ v.Fresh ∧ v.sourceRevision = [] ∧ v.destinationRevision = [] ∧ v.hasChange = true ∧
      ('\n' ∉ v.sourceTimestamp ∧ '\t' ∉ v.sourceTimestamp) ∧ '\n' ∉ v.destinationTimestamp ∧ '\t' ∉ v.destinationTimestamp := by
  obtain ⟨ls, out, g, f, h1, _, h3, _, _, h6⟩ := h
  have hone := cleaned_one (lineList_one h1) h3
  cases f with
  | Unified =>
    have h6 : ShowsFiles (unifiedForm unesc g) UnifiedShown out ms := h6
    obtain ⟨hdr, f, l, hs, rest, k1, k2, rfl, k4, k5, k6⟩ := showsFiles_mem (fun _ _ _ h => (unifiedShown_facts h).1) h6 v hv
    have hk : ∀ k ∈ hs, HunkFacts out k := fun k hk => ((unifiedShown_facts k2).2 k hk).mono k6
    have hd : ('\n' ∉ f.sourceTimestamp ∧ '\t' ∉ f.sourceTimestamp) ∧ '\n' ∉ f.destinationTimestamp ∧ '\t' ∉ f.destinationTimestamp := by
      cases g with
      | Perforce =>
        obtain ⟨_, _, _, _, _, _, _, e1, e2⟩ := k1
        rw [e1, e2]
        simp
      | CVSDiff =>
        obtain ⟨l1, l2, s, t, rfl, e1, e2, _⟩ := k1
        exact ⟨stamped_one e1 (hone _ (k5 _ (by simp))), stamped_one e2 (hone _ (k5 _ (by simp)))⟩
      | Diff =>
        obtain ⟨l1, l2, s, t, rfl, e1, e2, _⟩ := k1
        exact ⟨stamped_one e1 (hone _ (k5 _ (by simp))), stamped_one e2 (hone _ (k5 _ (by simp)))⟩
    refine ⟨unified_hunks hone hk hc, unified_own hk, ⟨?_, rfl, rfl⟩, rfl, rfl, ?_, hd⟩
    · intro k hkm
      have kf := hk k hkm
      exact ⟨kf.ok.1, fun d hd => (kf.ok.2.2 d hd).1⟩
    · unfold MView.hasChange
      rw [unified_own hk]
      obtain ⟨d, hd⟩ := List.exists_mem_of_ne_nil _ k4
      unfold changesOf at hd
      obtain ⟨hd, hty⟩ := List.mem_filter.1 hd
      obtain ⟨k, hkm, hd⟩ := List.mem_flatMap.1 hd
      exact List.any_eq_true.2 ⟨k, hkm, List.any_eq_true.2 ⟨d, hd, hty⟩⟩
  | Context =>
    have h6 : ShowsFiles (contextForm unesc g) ContextShown out ms := h6
    obtain ⟨hdr, f, l, hs, rest, k1, k2, rfl, k4, k5, k6⟩ := showsFiles_mem (fun _ _ _ h => (contextShown_facts h).1) h6 v hv
    exfalso
    obtain ⟨d, hd⟩ := List.exists_mem_of_ne_nil _ k4
    unfold changesOf at hd
    obtain ⟨hd, hty⟩ := List.mem_filter.1 hd
    obtain ⟨k, hkm, hd⟩ := List.mem_flatMap.1 hd
    obtain ⟨o1, o2⟩ := (contextShown_facts k2).2 k hkm
    have sd := (o1.2.2 d hd).2
    have hx : d.src ++ d.dst ≠ [] := by
      unfold DView.SidesAgreeContext at sd
      cases e : d.type <;> rw [e] at sd <;> simp only at sd <;> intro e2 <;> simp_all
    obtain ⟨x, hx⟩ := List.exists_mem_of_ne_nil _ hx
    obtain ⟨t, rfl, _⟩ := hc.lines k hkm d hd x hx
    exact o2 d hd _ hx (by simp)
  | Normal =>
    exfalso
    obtain ⟨f, hs, rfl, hst, hsh, l, rest, hh⟩ := normalFiles_mem h6 v hv
    obtain ⟨d, hd⟩ := List.exists_mem_of_ne_nil _ hsh
    unfold changesOf at hd
    obtain ⟨hd, hty⟩ := List.mem_filter.1 hd
    obtain ⟨k, hkm, hd⟩ := List.mem_flatMap.1 hd
    obtain ⟨x, hx⟩ := List.exists_mem_of_ne_nil _ (hn hst k hkm d hd)
    obtain ⟨t, rfl, _⟩ := hc.lines k hkm d hd x hx
    exact normalShown_no hh k hkm d hd _ hx (by simp)
  | _ => have e : ms = [] := h6; subst e; simp at hv

/-- A complete file can be written. -/
theorem textShows_writable {unesc : Str → Str} {text : Str} {ms : List MView} (h : TextShows unesc text ms) {v : MView} (hv : v ∈ ms)
    (hc : v.Complete) : v.Writable ∧ v.Fresh ∧ v.sourceRevision = [] ∧ v.destinationRevision = [] ∧ v.hasChange = true := by
  obtain ⟨k1, k2, k3, k4, k5, k6, k7, k8⟩ := textShows_unified h hv hc.toWholeLines (fun e => absurd e hc.stamps.1)
  exact ⟨⟨hc.source, hc.destination, ⟨hc.stamps.1, k7.2, k7.1⟩, ⟨hc.stamps.2, k8.2, k8.1⟩, by simp [k4], by simp [k5], k1⟩, k3, k4, k5, k6⟩

/-- A file without source time stamp is lost when it is written. -/
theorem textShows_unstamped {unesc : Str → Str} {text : Str} {ms : List MView} (h : TextShows unesc text ms) {v : MView} (hv : v ∈ ms)
    (hc : v.Gitlike) : v.Unstamped := by
  obtain ⟨k1, k2, k3, k4, k5, k6, k7, k8⟩ := textShows_unified h hv hc.toWholeLines (fun _ => hc.filled)
  exact ⟨k1, hc.source, hc.destination, hc.stamp, k4, ⟨k8.1, by simp [k5]⟩, by rw [k2]; exact hc.quiet⟩

end KompareDiff2
