import Verif.Proofs.Shown
import Verif.Proofs.Perforce
/-
What the parser shows of arbitrary lines: headers and unified hunks.
-/
namespace KompareDiff2
open Spec Re

theorem stamped_iff (pre : String) (l : Str) : UnifiedHeaderLine pre l ↔ ∃ name ts, StampedLine pre l name ts := by
  constructor
  · rintro ⟨name, tail, rfl, h1, h2, rfl | ⟨ts, more, rfl, h3, h4, h5⟩⟩
    · exact ⟨name, [], [], rfl, h1, h2, .inl ⟨rfl, rfl⟩⟩
    · by_cases ht : '\t' ∈ more
      · obtain ⟨p, q, rfl, hp⟩ := List.eq_append_cons_of_mem ht
        refine ⟨name, ts ++ p, _, rfl, h1, h2, .inr ⟨'\t' :: q, by simp, by simp [h3], by simp [h4, hp], .inr ⟨q, rfl, ?_⟩⟩⟩
        simp only [List.mem_append, List.mem_cons, not_or] at h5
        exact h5.2.2
      · exact ⟨name, ts ++ more, _, rfl, h1, h2, .inr ⟨[], by simp, by simp [h3], by simp [h4, ht], .inl rfl⟩⟩
  · rintro ⟨name, ts, tail, rfl, h1, h2, ⟨rfl, _⟩ | ⟨more, rfl, h3, h4, h5⟩⟩
    · exact ⟨name, [], rfl, h1, h2, .inl rfl⟩
    · refine ⟨name, _, rfl, h1, h2, .inr ⟨ts, more, rfl, h3, h4, ?_⟩⟩
      rcases h5 with rfl | ⟨e, rfl, he⟩
      · simp
      · simp [he]

theorem stampedTail_match (name ts tail : Str) (hne : name ≠ []) (htab : '\t' ∉ name)
    (h : tail = [] ∧ ts = [] ∨ ∃ more, tail = '\t' :: ts ++ more ∧ ts ≠ [] ∧ '\t' ∉ ts ∧ (more = [] ∨ ∃ e, more = '\t' :: e ∧ '\n' ∉ e)) :
    ∃ c, reUnifiedHeaderTail.full (name ++ tail ++ ['\n']) = some c ∧ c.get 1 = name ∧ c.get 2 = ts ∧ c.get 4 = [] := by
  rw [reUnifiedHeaderTail_eq]
  simp only [Re.full, m_cat_cons, m_cat_one, m_grp]
  rcases h with ⟨rfl, rfl⟩ | ⟨more, rfl, h1, h2, rfl | ⟨e, rfl, he⟩⟩
  · refine ⟨[(1, name)], ?_, rfl, rfl, rfl⟩
    rw [List.append_nil]
    refine m_noTab_newline _ _ _ _ hne htab ?_ ?_
    · simp [reStamp]
    · rw [take_len]
      simp [reStamp]
  · refine ⟨[(3, []), (2, ts), (1, name)], ?_, rfl, rfl, rfl⟩
    rw [show name ++ ('\t' :: ts ++ []) ++ ['\n'] = name ++ '\t' :: (ts ++ ['\n']) by simp]
    refine m_noTab_tab _ _ _ _ _ hne htab ?_
    have := stamp_plain ts [(1, name)] h1 h2
    rw [take_len, m_opt]
    simp only [List.cons_append] at this
    rw [this]; rfl
  · refine ⟨[(3, e), (2, ts), (1, name)], ?_, rfl, rfl, rfl⟩
    rw [show name ++ ('\t' :: ts ++ '\t' :: e) ++ ['\n'] = name ++ '\t' :: (ts ++ '\t' :: e ++ ['\n']) by simp]
    refine m_noTab_tab _ _ _ _ _ hne htab ?_
    have := stamp_extra ts e [(1, name)] h1 h2 he
    rw [take_len, m_opt]
    simp only [List.cons_append] at this
    rw [this]; rfl

theorem stamped_full1 {l : Str} {c : Caps} (h : reUnifiedHeader1.full l = some c) : StampedLine "--- " l (c.get 1) (c.get 2) ∧ c.get 4 = [] := by
  have hl : reUnifiedHeader1.Lang l := by rw [← Re.full_isSome, h]; rfl
  obtain ⟨name, ts, tail, rfl, h1, h2, h3⟩ := (stamped_iff _ _).1 ((unifiedHeader1_lang l).1 hl)
  obtain ⟨c', e, e1, e2, e4⟩ := stampedTail_match name ts tail h1 h2 h3
  rw [reUnifiedHeader1, List.append_assoc, List.append_assoc, full_seq_text, ← List.append_assoc, e] at h
  simp only [Option.some.injEq] at h
  subst h
  rw [e1, e2]
  exact ⟨⟨tail, rfl, h1, h2, h3⟩, e4⟩

theorem stamped_full2 {l : Str} {c : Caps} (h : reUnifiedHeader2.full l = some c) : StampedLine "+++ " l (c.get 1) (c.get 2) ∧ c.get 4 = [] := by
  have hl : reUnifiedHeader2.Lang l := by rw [← Re.full_isSome, h]; rfl
  obtain ⟨name, ts, tail, rfl, h1, h2, h3⟩ := (stamped_iff _ _).1 ((unifiedHeader2_lang l).1 hl)
  obtain ⟨c', e, e1, e2, e4⟩ := stampedTail_match name ts tail h1 h2 h3
  rw [reUnifiedHeader2, List.append_assoc, List.append_assoc, full_seq_text, ← List.append_assoc, e] at h
  simp only [Option.some.injEq] at h
  subst h
  rw [e1, e2]
  exact ⟨⟨tail, rfl, h1, h2, h3⟩, e4⟩

/-! ### Perforce -/

theorem p4_full {l : Str} {c : Caps} (h : reP4Header.full l = some c) : PerforceLine l (c.get 1) (c.get 2) := by
  have hl : reP4Header.Lang l := by rw [← Re.full_isSome, h]; rfl
  obtain ⟨s, t, rfl, hs, ht⟩ := (p4Header_lang l).1 hl
  have hin : str " - " <:+: s ++ (str " - " ++ t) := ⟨s, t, by simp⟩
  obtain ⟨a, b, e, hm⟩ := first_occurrence hin
  have hab : '\n' ∉ a ∧ '\n' ∉ b := by
    have : '\n' ∉ s ++ (str " - " ++ t) := by
      simp only [List.mem_append, not_or]; exact ⟨hs, by decide, ht⟩
    rw [e] at this
    simp only [List.mem_append, not_or] at this
    exact ⟨this.1, this.2.2⟩
  have hm' : ∀ v u, a = v ++ u → u ≠ [] → ¬ str " - " <+: u ++ (str " - " ++ (b ++ str " ====\n")) := by
    intro v u e' hu hp
    apply hm v u e' hu
    apply List.prefix_of_prefix_length_le hp (l₂ := u ++ (str " - " ++ b))
    · simp
    · simp; omega
  have el : str "==== " ++ s ++ str " - " ++ t ++ str " ====\n" = str "==== " ++ a ++ str " - " ++ b ++ str " ====\n" := by
    have := congrArg (fun x => str "==== " ++ (x ++ str " ====\n")) e
    simpa using this
  obtain ⟨c', h1, h2, h3⟩ := p4_match a b hab.1 hab.2 hm'
  rw [el, h1] at h
  simp only [Option.some.injEq] at h
  subst h
  rw [h2, h3, el]
  refine ⟨rfl, hab.1, hab.2, ?_⟩
  intro s' t' e'
  apply Decidable.byContradiction
  intro hlt
  simp only [List.append_assoc] at e'
  have e2 := List.append_cancel_left e'
  rcases List.append_eq_append_iff.1 e2 with ⟨u, e3, e4⟩ | ⟨u, e3, e4⟩
  · rw [e3] at hlt; simp at hlt
  · have hu : u ≠ [] := by rintro rfl; rw [e3] at hlt; simp at hlt
    exact hm' s' u e3 hu ⟨_, e4⟩

theorem p4Name_digits (s d : Str) (hs : s ≠ []) (hh : '#' ∉ s) (hd : Digits d ∨ d = []) :
    ∃ c, reP4Destination.full (s ++ '#' :: d) = some c ∧ c.get 1 = s := by
  refine ⟨[(2, d), (1, s)], ?_, rfl⟩
  rw [Re.full, reP4Destination, m_cat_cons, m_grp]
  refine m_noHash s d [] _ _ hs hh ?_
  rw [take_len, m_cat_cons, m_lit_cons, if_pos rfl, m_cat_one, m_grp, m_alt]
  rcases hd with hd | rfl
  · rw [m_eps, if_neg hd.1, Option.none_or]
    exact m_digits_end d [(1, s)] hd 2
  · rfl

theorem noHash_lang (s : Str) : (many1 reNoHash).Lang s ↔ s ≠ [] ∧ '#' ∉ s := by
  rw [reNoHash, lang_many1_chr]
  refine and_congr_right fun _ => ?_
  constructor
  · intro h hm; simpa using h _ hm
  · intro h c hc; simp only [decide_eq_true_eq]; intro e; exact h (e ▸ hc)

theorem p4Source_name (s : Str) : PerforceName false s (match reP4Source.full s with | some c => c.get 1 | none => []) := by
  split
  · rename_i c h
    have hl : reP4Source.Lang s := by rw [← Re.full_isSome, h]; rfl
    simp only [reP4Source, lang_cat_cons, lang_cat_one, lang_lit, lang_grp, many1Digit_lang, noHash_lang] at hl
    obtain ⟨n, _, rfl, ⟨h1, h2⟩, _, d, rfl, rfl, hd⟩ := hl
    obtain ⟨c', e, e1⟩ := p4Source_match n d h1 h2 hd
    simp only [List.singleton_append] at h
    rw [e] at h
    simp only [Option.some.injEq] at h
    subst h
    rw [e1]
    exact .inl ⟨d, rfl, h1, h2, .inl hd⟩
  · rename_i h
    refine .inr ⟨rfl, ?_⟩
    rintro ⟨n, d, rfl, h1, h2, hd | hd⟩
    · obtain ⟨c', e, e1⟩ := p4Source_match n d h1 h2 hd
      rw [e] at h; simp at h
    · simp at hd

theorem p4Destination_name (s : Str) : PerforceName true s (match reP4Destination.full s with | some c => c.get 1 | none => []) := by
  split
  · rename_i c h
    have hl : reP4Destination.Lang s := by rw [← Re.full_isSome, h]; rfl
    simp only [reP4Destination, lang_cat_cons, lang_cat_one, lang_lit, lang_grp, lang_alt, many1Digit_lang, noHash_lang] at hl
    obtain ⟨n, _, rfl, ⟨h1, h2⟩, _, d, rfl, rfl, hd⟩ := hl
    have hd' : Digits d ∨ d = [] := by
      rcases hd with hd | hd
      · exact .inr hd
      · exact .inl hd
    obtain ⟨c', e, e1⟩ := p4Name_digits n d h1 h2 hd'
    simp only [List.singleton_append] at h
    rw [e] at h
    simp only [Option.some.injEq] at h
    subst h
    rw [e1]
    refine .inl ⟨d, rfl, h1, h2, ?_⟩
    rcases hd' with hd | hd
    · exact .inl hd
    · exact .inr ⟨rfl, hd⟩
  · rename_i h
    refine .inr ⟨rfl, ?_⟩
    rintro ⟨n, d, rfl, h1, h2, hd⟩
    obtain ⟨c', e, e1⟩ := p4Name_digits n d h1 h2 (by rcases hd with hd | hd; exact .inl hd; exact .inr hd.2)
    rw [e] at h; simp at h

theorem p4_names (c : Caps) {l : Str} (h : reP4Header.full l = some c) : ∃ f, perforceForm.header [l] f ∧ ∀ h, (p4Model c).view h = f.view [] := by
  refine ⟨{ source := _, destination := _ }, ⟨l, _, _, rfl, p4_full h, p4Source_name _, p4Destination_name _, rfl, rfl⟩, ?_⟩
  intro h
  rfl

theorem p4_header_shows {st st' : PState} (h : p4Header st st.rest = (st', true)) : HeaderShows perforceForm st st' true := by
  have hs := (p4Header_step st st.rest).1
  rw [h] at hs
  refine ⟨hs, fun _ => ?_⟩
  obtain ⟨pre, l, c, e1, e2, e3, e4⟩ := p4_shown (st := st) st.rest (by rw [h])
  rw [h] at e1 e4
  obtain ⟨f, f1, f2⟩ := p4_names c e3
  exact ⟨pre, [l], f, e1, e2, f1, fun h => by rw [e4]; exact f2 h⟩

theorem unified_header_shows {win : Bool} {g : Generator} {st st' : PState} (h : parseUnifiedDiffHeader win g st = Res.ok (st', true)) :
    HeaderShows (unifiedForm (unescapePath win) g) st st' true := by
  have key : ∀ g', g = g' → g' ≠ .Perforce → HeaderShows (unifiedForm (unescapePath win) g) st st' true := by
    intro g' e hg
    subst e
    have eo : (unifiedForm (unescapePath win) g).first = UnifiedHeaderLine "--- " := by cases g <;> first | rfl | exact absurd rfl hg
    have eh : (unifiedForm (unescapePath win) g).header = fun hdr f => ∃ l1 l2 s t, hdr = [l1, l2] ∧ StampedLine "--- " l1 s f.sourceTimestamp ∧
        StampedLine "+++ " l2 t f.destinationTimestamp ∧ f.source = unescapePath win s ∧ f.destination = unescapePath win t := by
      cases g <;> first | rfl | exact absurd rfl hg
    have er : unifiedHeader1 g = reUnifiedHeader1 := by cases g <;> first | rfl | exact absurd rfl hg
    have e2 : twoLineHeader (unifiedHeader1 g) reUnifiedHeader2 (fun c1 c2 =>
      newModel (unescapePath win (c1.get 1)) (unescapePath win (c2.get 1)) (c1.get 2) (c1.get 4) (c2.get 2) (c2.get 4)) st st.rest = Res.ok (st', true) := by
      cases g <;> first | exact h | exact absurd rfl hg
    rw [er] at e2
    obtain ⟨k1, k2⟩ := twoLine_shown (o := unifiedForm (unescapePath win) g) (fun _ _ => newModel_blank _ _ _ _ _ _)
      (fun l => by rw [eo]; exact unifiedHeader1_lang l) (by
        intro l1 l2 c1 c2 h1 h2
        obtain ⟨s1, s2⟩ := stamped_full1 h1
        obtain ⟨t1, t2⟩ := stamped_full2 h2
        refine ⟨{ source := unescapePath win (c1.get 1), destination := unescapePath win (c2.get 1), sourceTimestamp := c1.get 2, destinationTimestamp := c2.get 2 }, ?_, ?_⟩
        · rw [eh]; exact ⟨l1, l2, _, _, rfl, s1, t1, rfl, rfl⟩
        · intro h
          rw [s2, t2]
          rfl) _ e2
    exact ⟨k1, fun _ => k2⟩
  cases g with
  | Perforce =>
    unfold parseUnifiedDiffHeader at h
    simp only [Res.ok.injEq] at h
    exact p4_header_shows h
  | Diff => exact key _ rfl (by simp)
  | CVSDiff => exact key _ rfl (by simp)

theorem unified_header_hidden {win : Bool} {g : Generator} {H : List Str → List HView → List Str → Prop} {st st' : PState}
    (h : parseUnifiedDiffHeader win g st = Res.ok (st', false)) : ShowsFiles (unifiedForm (unescapePath win) g) H st.rest [] := by
  have key : g ≠ .Perforce → ShowsFiles (unifiedForm (unescapePath win) g) H st.rest [] := by
    intro hg
    have eo : (unifiedForm (unescapePath win) g).first = UnifiedHeaderLine "--- " := by cases g <;> first | rfl | exact absurd rfl hg
    have eh : (unifiedForm (unescapePath win) g).header = fun hdr f => ∃ l1 l2 s t, hdr = [l1, l2] ∧ StampedLine "--- " l1 s f.sourceTimestamp ∧
        StampedLine "+++ " l2 t f.destinationTimestamp ∧ f.source = unescapePath win s ∧ f.destination = unescapePath win t := by
      cases g <;> first | rfl | exact absurd rfl hg
    have er : unifiedHeader1 g = reUnifiedHeader1 := by cases g <;> first | rfl | exact absurd rfl hg
    have e2 : twoLineHeader (unifiedHeader1 g) reUnifiedHeader2 (fun c1 c2 =>
      newModel (unescapePath win (c1.get 1)) (unescapePath win (c2.get 1)) (c1.get 2) (c1.get 4) (c2.get 2) (c2.get 4)) st st.rest = Res.ok (st', false) := by
      cases g <;> first | exact h | exact absurd rfl hg
    rw [er] at e2
    refine twoLine_hidden (fun l => by rw [eo]; exact unifiedHeader1_lang l) ?_ ?_ _ e2
    · rintro l f hf
      rw [eh] at hf
      obtain ⟨_, _, _, _, e, _⟩ := hf
      simp at e
    · rintro l1 l2 f hf
      rw [eh] at hf
      obtain ⟨_, _, _, t, e, _, ht, _⟩ := hf
      simp only [List.cons.injEq, and_true] at e
      rw [e.2, unifiedHeader2_lang]
      exact (stamped_iff _ _).2 ⟨_, _, ht⟩
  cases g with
  | Perforce =>
    unfold parseUnifiedDiffHeader at h
    simp only [Res.ok.injEq] at h
    exact .finished _ (p4_hidden (st := st) _ (by rw [h]))
  | Diff => exact key (by simp)
  | CVSDiff => exact key (by simp)

end KompareDiff2
