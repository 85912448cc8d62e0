import Verif.Proofs.ShownContext
import Verif.Proofs.ShownOnce
/-
There is only one way to read a context diff, and what is shown stands in it.
-/
namespace KompareDiff2
open Spec Re

/-! ### Headers -/

theorem split_at {c : Char} {s t s1 s2 : Str} (h : c ∉ s) (h' : c ∉ t) (e : s ++ c :: s1 = t ++ c :: s2) : s = t ∧ s1 = s2 := by
  induction s generalizing t with
  | nil =>
    cases t with
    | nil => simpa using e
    | cons x t => simp only [List.nil_append, List.cons_append, List.cons.injEq] at e; exact absurd (by rw [← e.1]; simp) h'
  | cons x s ih =>
    cases t with
    | nil => simp only [List.nil_append, List.cons_append, List.cons.injEq] at e; exact absurd (by rw [e.1]; simp) h
    | cons y t =>
      simp only [List.cons_append, List.cons.injEq] at e
      simp only [List.mem_cons, not_or] at h h'
      obtain ⟨e1, e2⟩ := ih h.2 h'.2 e.2
      exact ⟨by rw [e.1, e1], e2⟩

theorem no_tab_line {s t u : Str} (h : '\t' ∉ s) (e : s ++ ['\n'] = t ++ '\t' :: u) : False := by
  have : '\t' ∈ s ++ ['\n'] := by rw [e]; simp
  simp [h] at this

theorem dated_det {pre : String} {l n n' t t' : Str} (h : DatedLine pre l n t) (h' : DatedLine pre l n' t') : n = n' ∧ t = t' := by
  obtain ⟨tail, e, h1, h2, h3⟩ := h
  obtain ⟨tail', e', g1, g2, g3⟩ := h'
  rw [e] at e'
  simp only [List.append_assoc] at e'
  have e' := List.append_cancel_left e'
  rcases h3 with ⟨rfl, rfl⟩ | ⟨rfl, h3, h4⟩ <;> rcases g3 with ⟨rfl, rfl⟩ | ⟨rfl, g3, g4⟩
  · simp only [List.nil_append] at e'
    exact ⟨List.append_cancel_right e', rfl⟩
  · exact absurd e' (fun e => no_tab_line h2 e)
  · exact absurd e'.symm (fun e => no_tab_line g2 e)
  · obtain ⟨e1, e2⟩ := split_at h2 g2 e'
    exact ⟨e1, List.append_cancel_right e2⟩

theorem cvs1_det {l n n' t t' : Str} (h : CvsLine1 l n t) (h' : CvsLine1 l n' t') : n = n' ∧ t = t' := by
  obtain ⟨ts, e, h1, h2, h3, h4, h5⟩ := h
  obtain ⟨ts', e', g1, g2, g3, g4, g5⟩ := h'
  rw [e] at e'
  simp only [List.append_assoc, List.cons_append] at e'
  obtain ⟨e1, e2⟩ := split_at h2 g2 (List.append_cancel_left e')
  obtain ⟨_, e3⟩ := split_at h4 g4 e2
  exact ⟨e1, List.append_cancel_right e3⟩

theorem cvs2_det {l n n' t t' : Str} (h : CvsLine2 l n t) (h' : CvsLine2 l n' t') : n = n' ∧ t = t' := by
  obtain ⟨ts, e, h1, h2, h3, h4, h5⟩ := h
  obtain ⟨ts', e', g1, g2, g3, g4, g5⟩ := h'
  rw [e] at e'
  simp only [List.append_assoc, List.cons_append] at e'
  obtain ⟨e1, e2⟩ := split_at h2 g2 (List.append_cancel_left e')
  refine ⟨e1, ?_⟩
  rcases h5 with rfl | ⟨r, rfl, h5⟩ <;> rcases g5 with rfl | ⟨r', rfl, g5⟩
  · rfl
  · exact absurd e2 (fun e => no_tab_line h4 e)
  · exact absurd e2.symm (fun e => no_tab_line g4 e)
  · obtain ⟨_, e3⟩ := split_at h4 g4 e2
    rw [List.append_cancel_right e3]

theorem twoLine_proper {F : Str → Prop} {A C : Str → Str → Str → Prop} {unesc : Str → Str} (hf : ∀ l s t, A l s t → F l)
    (hA : ∀ l s s' t t', A l s t → A l s' t' → s = s' ∧ t = t') (hB : ∀ l s s' t t', C l s t → C l s' t' → s = s' ∧ t = t') :
    Spec.FileForm.Proper { first := F, header := fun hdr f => ∃ l1 l2 s t, hdr = [l1, l2] ∧ A l1 s f.sourceTimestamp ∧ C l2 t f.destinationTimestamp ∧ f.source = unesc s ∧ f.destination = unesc t } where
  opens := by
    rintro hdr f ⟨l1, l2, s, t, rfl, h1, _⟩
    exact ⟨l1, [l2], rfl, hf _ _ _ h1⟩
  short := by
    rintro hdr f ⟨l1, l2, s, t, rfl, _⟩
    simp
  unique := by
    rintro hdr hdr' f f' ls ls' ⟨l1, l2, s, t, rfl, h1, h2, h3, h4⟩ ⟨l1', l2', s', t', rfl, g1, g2, g3, g4⟩ e
    simp only [List.cons_append, List.nil_append, List.cons.injEq] at e
    obtain ⟨rfl, rfl, _⟩ := e
    obtain ⟨e1, e2⟩ := hA _ _ _ _ _ h1 g1
    obtain ⟨e3, e4⟩ := hB _ _ _ _ _ h2 g2
    refine ⟨rfl, ?_⟩
    cases f; cases f'
    simp only at *
    simp [h3, h4, g3, g4, e1, e2, e3, e4]

theorem contextForm_proper (unesc : Str → Str) (g : Generator) : (contextForm unesc g).Proper := by
  cases g with
  | Perforce => exact perforceForm_proper
  | Diff =>
    exact twoLine_proper (A := DatedLine "*** ") (C := DatedLine "--- ") (fun l s t h => (dated_iff _ _).2 ⟨s, t, h⟩) (fun _ _ _ _ _ => dated_det)
      (fun _ _ _ _ _ => dated_det)
  | CVSDiff =>
    refine twoLine_proper (A := CvsLine1) (C := CvsLine2) ?_ (fun _ _ _ _ _ => cvs1_det) (fun _ _ _ _ _ => cvs2_det)
    rintro l s t ⟨ts, h⟩
    exact ⟨s, ts, t, h⟩

theorem star_line {l f : Str} (h : StarHead l f) : StarLine l := by obtain ⟨t, h1, h2, _⟩ := h; exact ⟨t, h1, h2⟩
theorem old_line {l : Str} {x : Int} (h : OldHead l x) : OldRange l := by obtain ⟨a, b, t, h1, h2, h3, h4, _⟩ := h; exact ⟨a, b, t, h1, h2, h3, h4⟩
theorem new_line {l : Str} {x : Int} (h : NewHead l x) : NewRange l := by obtain ⟨a, b, h1, h2, h3, _⟩ := h; exact ⟨a, b, h1, h2, h3⟩

theorem star_det {l f f' : Str} (h : StarHead l f) (h' : StarHead l f') : f = f' := by
  obtain ⟨t, e, _, rfl⟩ := h
  obtain ⟨t', e', _, rfl⟩ := h'
  rw [e, List.append_assoc, List.append_assoc] at e'
  rw [List.append_cancel_right (List.append_cancel_left e')]

theorem comma_digits {a : Str} (h : Digits a) : ',' ∉ a := fun e => absurd (h.2 _ e) (by unfold Digit; decide)

theorem old_det {l : Str} {x x' : Int} (h : OldHead l x) (h' : OldHead l x') : x = x' := by
  obtain ⟨a, b, t, e, h1, _, _, rfl⟩ := h
  obtain ⟨a', b', t', e', g1, _, _, rfl⟩ := h'
  rw [e] at e'
  simp only [List.append_assoc, List.cons_append] at e'
  rw [(split_at (comma_digits h1) (comma_digits g1) (List.append_cancel_left e')).1]

theorem new_det {l : Str} {x x' : Int} (h : NewHead l x) (h' : NewHead l x') : x = x' := by
  obtain ⟨a, b, e, h1, _, rfl⟩ := h
  obtain ⟨a', b', e', g1, _, rfl⟩ := h'
  rw [e] at e'
  simp only [List.append_assoc, List.cons_append] at e'
  rw [(split_at (comma_digits h1) (comma_digits g1) (List.append_cancel_left e')).1]

/-! ### Sections -/

/-- The next line is marked. -/
def Begins (c : Char) (ls : List Str) : Prop := ∃ t more, '\n' ∉ t ∧ ls = markedLine c t :: more

theorem markedLine_inj {c d : Char} {s t : Str} (h : markedLine c s = markedLine d t) : c = d ∧ s = t := by
  simp only [markedLine, List.cons_append, List.cons.injEq, true_and] at h
  exact ⟨h.1, List.append_cancel_right h.2⟩

theorem begins_one {c d : Char} {ls : List Str} (h : Begins c ls) (h' : Begins d ls) : c = d := by
  obtain ⟨t, more, _, rfl⟩ := h
  obtain ⟨t', more', _, e⟩ := h'
  simp only [List.cons.injEq] at e
  exact (markedLine_inj e.1).1

theorem begins_nil (c : Char) : ¬ Begins c [] := by rintro ⟨t, more, _, e⟩; simp at e

theorem run_begins {c : Char} {ls ts r : List Str} (h : MarkedRun c ls ts r) (hne : ts ≠ []) : Begins c ls := by
  obtain ⟨rfl, h2, _⟩ := h
  cases ts with
  | nil => exact absurd rfl hne
  | cons t ts => exact ⟨t, _, h2 t (by simp), rfl⟩

theorem norun_begins {c : Char} {ls : List Str} (h : MarkedRun c ls [] ls) : ¬ Begins c ls := by
  rintro ⟨t, more, ht, e⟩
  exact h.2.2 t more ht e

theorem markedRun_det {c : Char} {ls ts ts' r r' : List Str} (h : MarkedRun c ls ts r) (h' : MarkedRun c ls ts' r') : ts = ts' ∧ r = r' := by
  obtain ⟨e, h1, h2⟩ := h
  obtain ⟨e', g1, g2⟩ := h'
  rw [e] at e'
  clear e
  induction ts generalizing ts' with
  | nil =>
    cases ts' with
    | nil => exact ⟨rfl, e'⟩
    | cons t ts' => exact absurd e' (h2 t _ (g1 t (by simp)))
  | cons t ts ih =>
    cases ts' with
    | nil => exact absurd e'.symm (g2 t _ (h1 t (by simp)))
    | cons t' ts' =>
      simp only [List.map_cons, List.cons_append, List.cons.injEq] at e'
      obtain ⟨i1, i2⟩ := ih (fun t ht => h1 t (by simp [ht])) e'.2 (fun t ht => g1 t (by simp [ht]))
      exact ⟨by rw [(markedLine_inj e'.1).2, i1], i2⟩

/-- The end of the section, or an unmarked line. -/
def PlainNext (ls : List Str) : Prop := ls = [] ∨ Begins ' ' ls

theorem stops_plain {ls : List Str} : (ls ≠ [] ∧ ∀ t more, '\n' ∉ t → ls ≠ markedLine ' ' t :: more) ↔ ¬ PlainNext ls := by
  unfold PlainNext Begins
  constructor
  · rintro ⟨h1, h2⟩ (h | ⟨t, more, h3, h4⟩)
    · exact h1 h
    · exact h2 t more h3 h4
  · intro h
    exact ⟨fun e => h (.inl e), fun t more h1 h2 => h (.inr ⟨t, more, h1, h2⟩)⟩

theorem plainRun_next {os ns ts os' ns' : List Str} (h : PlainRun os ns ts os' ns') (hne : ts ≠ []) :
    PlainNext os ∧ PlainNext ns ∧ (os ≠ [] ∨ ns ≠ []) := by
  obtain ⟨oc, nc, rfl, rfl, h1, rfl, h2, h3, h4⟩ := h
  cases oc with
  | nil =>
    cases nc with
    | nil => simp at hne
    | cons y nc =>
      refine ⟨.inl ?_, .inr ⟨y, _, h1 y (by simp), rfl⟩, .inr (by simp)⟩
      simpa using h2 (by simp)
  | cons x oc =>
    refine ⟨.inr ⟨x, _, h1 x (by simp), rfl⟩, ?_, .inl (by simp)⟩
    cases nc with
    | nil => exact .inl (by simpa using h3 (by simp))
    | cons y nc => exact .inr ⟨y, _, h1 y (by simp), rfl⟩

theorem plainRun_det {os ns ts ts' os' os'' ns' ns'' : List Str} (h : PlainRun os ns ts os' ns') (h' : PlainRun os ns ts' os'' ns'') :
    ts = ts' ∧ os' = os'' ∧ ns' = ns'' := by
  obtain ⟨oc, nc, e1, e2, h1, rfl, h2, h3, h4⟩ := h
  obtain ⟨oc', nc', e1', e2', g1, rfl, g2, g3, g4⟩ := h'
  rw [stops_plain, stops_plain] at h4 g4
  rw [e1] at e1'
  rw [e2] at e2'
  clear e1 e2
  have key : oc = oc' ∧ os' = os'' ∧ nc = nc' ∧ ns' = ns'' := by
      have case1 : ∀ (xs xs' : List Str) (u u' : List Str), (∀ t ∈ xs, '\n' ∉ t) → (∀ t ∈ xs', '\n' ∉ t) →
          xs.map (markedLine ' ') ++ u = xs'.map (markedLine ' ') ++ u' → xs.length < xs'.length → PlainNext u ∧ u ≠ [] := by
        intro xs
        induction xs with
        | nil =>
          intro xs' u u' _ hx e hl
          cases xs' with
          | nil => simp at hl
          | cons t xs' =>
            simp only [List.map_nil, List.nil_append] at e
            exact ⟨.inr ⟨t, _, hx t (by simp), e⟩, by rw [e]; simp⟩
        | cons x xs ihx =>
          intro xs' u u' hx hx' e hl
          cases xs' with
          | nil => simp at hl
          | cons t xs' =>
            simp only [List.map_cons, List.cons_append, List.cons.injEq] at e
            exact ihx xs' u u' (fun t h => hx t (by simp [h])) (fun t h => hx' t (by simp [h])) e.2 (by simp at hl; omega)
      have ho : ∀ t ∈ oc, '\n' ∉ t := fun t h => h1 t (by simp [h])
      have hn' : ∀ t ∈ nc, '\n' ∉ t := fun t h => h1 t (by simp [h])
      have go : ∀ t ∈ oc', '\n' ∉ t := fun t h => g1 t (by simp [h])
      have gn : ∀ t ∈ nc', '\n' ∉ t := fun t h => g1 t (by simp [h])
      have c1 := case1 oc oc' os' os'' ho go e1'
      have c2 := case1 oc' oc os'' os' go ho e1'.symm
      have c3 := case1 nc nc' ns' ns'' hn' gn e2'
      have c4 := case1 nc' nc ns'' ns' gn hn' e2'.symm
      have pn : PlainNext [] := .inl rfl
      have q1 : oc.length = oc'.length → os' = os'' := fun e => (List.append_inj e1' (by simp [e])).2
      have q2 : nc.length = nc'.length → ns' = ns'' := fun e => (List.append_inj e2' (by simp [e])).2
      clear case1
      have lo : oc.length = oc'.length ∧ nc.length = nc'.length := by
        rcases Nat.lt_trichotomy oc.length oc'.length with a | a | a <;> rcases Nat.lt_trichotomy nc.length nc'.length with b | b | b
        · grind
        · grind
        · grind
        · grind
        · exact ⟨a, b⟩
        · grind
        · grind
        · grind
        · grind
      have inj : ∀ (xs ys : List Str), xs.map (markedLine ' ') = ys.map (markedLine ' ') → xs = ys := by
        intro xs
        induction xs with
        | nil => intro ys e; cases ys with | nil => rfl | cons => simp at e
        | cons x xs ihx =>
          intro ys e
          cases ys with
          | nil => simp at e
          | cons y ys =>
            simp only [List.map_cons, List.cons.injEq] at e
            rw [(markedLine_inj e.1).2, ihx ys e.2]
      obtain ⟨f1, f2⟩ := List.append_inj e1' (by simp [lo.1])
      obtain ⟨f3, f4⟩ := List.append_inj e2' (by simp [lo.2])
      exact ⟨inj _ _ f1, f2, inj _ _ f3, f4⟩
  obtain ⟨rfl, rfl, rfl, rfl⟩ := key
  exact ⟨rfl, rfl, rfl⟩

/-- Which of the rules of `Paired` is the next one. -/
def NextRule (k : Nat) (os ns : List Str) : Prop :=
  match k with
  | 0 => os = [] ∧ ns = []
  | 1 => Begins '-' os
  | 2 => ¬ Begins '-' os ∧ Begins '+' ns
  | 3 => PlainNext os ∧ PlainNext ns ∧ (os ≠ [] ∨ ns ≠ [])
  | 4 => ¬ Begins '-' os ∧ ¬ Begins '+' ns ∧ (Begins '!' os ∨ Begins '!' ns)
  | _ => (os ≠ [] ∨ ns ≠ []) ∧ ¬ Begins '-' os ∧ ¬ Begins '+' ns ∧ ¬ (PlainNext os ∧ PlainNext ns) ∧ ¬ Begins '!' os ∧ ¬ Begins '!' ns

theorem nextRule_one {j k : Nat} {os ns : List Str} (h : NextRule j os ns) (h' : NextRule k os ns) (hj : j ≤ 5) (hk : k ≤ 5) : j = k := by
  have f : ∀ ls : List Str, (ls = [] → ¬ Begins '-' ls ∧ ¬ Begins '+' ls ∧ ¬ Begins '!' ls ∧ ¬ Begins ' ' ls) ∧
      ¬ (Begins '-' ls ∧ Begins '+' ls) ∧ ¬ (Begins '-' ls ∧ Begins '!' ls) ∧ ¬ (Begins '-' ls ∧ Begins ' ' ls) ∧
      ¬ (Begins '+' ls ∧ Begins '!' ls) ∧ ¬ (Begins '+' ls ∧ Begins ' ' ls) ∧ ¬ (Begins '!' ls ∧ Begins ' ' ls) := by
    intro ls
    refine ⟨fun e => ?_, ?_⟩
    · subst e; exact ⟨begins_nil _, begins_nil _, begins_nil _, begins_nil _⟩
    · refine ⟨?_, ?_, ?_, ?_, ?_, ?_⟩ <;> exact fun h => absurd (begins_one h.1 h.2) (by decide)
  have fo := f os
  have fn := f ns
  clear f
  have aj : j = 0 ∨ j = 1 ∨ j = 2 ∨ j = 3 ∨ j = 4 ∨ j = 5 := by omega
  have ak : k = 0 ∨ k = 1 ∨ k = 2 ∨ k = 3 ∨ k = 4 ∨ k = 5 := by omega
  rcases aj with rfl | rfl | rfl | rfl | rfl | rfl <;> rcases ak with rfl | rfl | rfl | rfl | rfl | rfl <;> first | rfl | (exfalso; simp only [NextRule, PlainNext] at h h'; grind)

theorem paired_det {os ns : List Str} {vs ws : List DView} (h : Paired os ns vs) (h' : Paired os ns ws) :
    vs.map (fun v => (v.type, v.src, v.dst)) = ws.map (fun v => (v.type, v.src, v.dst)) := by
  have rule : ∀ {os ns : List Str} {vs : List DView}, Paired os ns vs → ∃ k, k ≤ 5 ∧ NextRule k os ns ∧
      match k with
      | 0 => vs = []
      | 1 => ∃ os' v vs', MarkedRun '-' os v.src os' ∧ v.type = .Delete ∧ v.dst = [] ∧ Paired os' ns vs' ∧ vs = v :: vs'
      | 2 => ∃ ns' v vs', MarkedRun '+' ns v.dst ns' ∧ v.type = .Insert ∧ v.src = [] ∧ Paired os ns' vs' ∧ vs = v :: vs'
      | 3 => ∃ os' ns' v vs', PlainRun os ns v.src os' ns' ∧ v.type = .Unchanged ∧ v.dst = v.src ∧ Paired os' ns' vs' ∧ vs = v :: vs'
      | 4 => ∃ os' ns' v vs', MarkedRun '!' os v.src os' ∧ MarkedRun '!' ns v.dst ns' ∧ v.type = .Change ∧ Paired os' ns' vs' ∧ vs = v :: vs'
      | _ => vs = [] := by
    intro os ns vs h
    cases h with
    | done => exact ⟨0, by omega, ⟨rfl, rfl⟩, rfl⟩
    | removed _ os' _ v vs h1 h2 h3 h4 h5 => exact ⟨1, by omega, run_begins h1 h3, os', v, vs, h1, h2, h4, h5, rfl⟩
    | added _ _ ns' v vs h0 h1 h2 h3 h4 h5 => exact ⟨2, by omega, ⟨norun_begins h0, run_begins h1 h3⟩, ns', v, vs, h1, h2, h4, h5, rfl⟩
    | unchanged _ os' _ ns' v vs h1 h2 h3 h4 h5 => exact ⟨3, by omega, plainRun_next h1 h3, os', ns', v, vs, h1, h2, h4, h5, rfl⟩
    | changed _ os' _ ns' v vs h1 h2 h3 h4 h5 h6 h7 =>
      exact ⟨4, by omega, ⟨norun_begins h1, norun_begins h2, h6.imp (run_begins h3) (run_begins h4)⟩, os', ns', v, vs, h3, h4, h5, h7, rfl⟩
    | lost _ _ h0 h1 h2 h3 h4 h5 =>
      refine ⟨5, by omega, ⟨h0, norun_begins h1, norun_begins h2, ?_, norun_begins h4, norun_begins h5⟩, rfl⟩
      obtain ⟨oc, nc, _, _, _, _, _, _, h6⟩ := h3
      rw [stops_plain, stops_plain] at h6
      rintro ⟨a, b⟩
      rcases h6 with h6 | h6 | h6
      · rcases h0 with h0 | h0
        · exact h0 h6.1
        · exact h0 h6.2
      · exact h6 a
      · exact h6 b
  induction h generalizing ws with
  | done =>
    obtain ⟨k, hk, hr, hw⟩ := rule h'
    have := nextRule_one (j := 0) ⟨rfl, rfl⟩ hr (by omega) hk
    subst this
    simp only at hw
    rw [hw]
  | removed os os' ns v vs h1 h2 h3 h4 h5 ih =>
    obtain ⟨k, hk, hr, hw⟩ := rule h'
    have := nextRule_one (j := 1) (run_begins h1 h3) hr (by omega) hk
    subst this
    simp only at hw
    obtain ⟨os'', v', vs', g1, g2, g3, g4, rfl⟩ := hw
    obtain ⟨e1, e2⟩ := markedRun_det h1 g1
    subst e2
    simp only [List.map_cons]
    rw [ih g4, h2, g2, h4, g3, e1]
  | added os ns ns' v vs h0 h1 h2 h3 h4 h5 ih =>
    obtain ⟨k, hk, hr, hw⟩ := rule h'
    have := nextRule_one (j := 2) ⟨norun_begins h0, run_begins h1 h3⟩ hr (by omega) hk
    subst this
    simp only at hw
    obtain ⟨os'', v', vs', g1, g2, g3, g4, rfl⟩ := hw
    obtain ⟨e1, e2⟩ := markedRun_det h1 g1
    subst e2
    simp only [List.map_cons]
    rw [ih g4, h2, g2, h4, g3, e1]
  | unchanged os os' ns ns' v vs h1 h2 h3 h4 h5 ih =>
    obtain ⟨k, hk, hr, hw⟩ := rule h'
    have := nextRule_one (j := 3) (plainRun_next h1 h3) hr (by omega) hk
    subst this
    simp only at hw
    obtain ⟨os'', ns'', v', vs', g1, g2, g3, g4, rfl⟩ := hw
    obtain ⟨e1, e2, e3⟩ := plainRun_det h1 g1
    subst e2 e3
    simp only [List.map_cons]
    rw [ih g4, h2, g2, h4, g3, e1]
  | changed os os' ns ns' v vs h1 h2 h3 h4 h5 h6 h7 ih =>
    obtain ⟨k, hk, hr, hw⟩ := rule h'
    have := nextRule_one (j := 4) ⟨norun_begins h1, norun_begins h2, h6.imp (run_begins h3) (run_begins h4)⟩ hr (by omega) hk
    subst this
    simp only at hw
    obtain ⟨os'', ns'', v', vs', g1, g2, g3, g4, rfl⟩ := hw
    obtain ⟨e1, e2⟩ := markedRun_det h3 g1
    obtain ⟨e3, e4⟩ := markedRun_det h4 g2
    subst e2 e4
    simp only [List.map_cons]
    rw [ih g4, h5, g3, e1, e3]
  | lost os ns h0 h1 h2 h3 h4 h5 =>
    obtain ⟨k, hk, hr, _⟩ := rule (.lost os ns h0 h1 h2 h3 h4 h5)
    obtain ⟨j, hj, hq, hw⟩ := rule h'
    have hp : NextRule 5 os ns := by
      refine ⟨h0, norun_begins h1, norun_begins h2, ?_, norun_begins h4, norun_begins h5⟩
      obtain ⟨oc, nc, _, _, _, _, _, _, h6⟩ := h3
      rw [stops_plain, stops_plain] at h6
      rintro ⟨a, b⟩
      rcases h6 with h6 | h6 | h6
      · rcases h0 with h0 | h0
        · exact h0 h6.1
        · exact h0 h6.2
      · exact h6 a
      · exact h6 b
    have := nextRule_one hp hq (by omega) hj
    subst this
    simp only at hw
    rw [hw]

/-- Differences are determined by their kinds and lines and by where they begin. -/
theorem views_placed {a b : Int} {vs ws : List DView} (hc : Contiguous a b vs) (hc' : Contiguous a b ws) (ho : ∀ v ∈ vs, v.Fresh) (ho' : ∀ v ∈ ws, v.Fresh)
    (e : vs.map (fun v => (v.type, v.src, v.dst)) = ws.map (fun v => (v.type, v.src, v.dst))) : vs = ws := by
  induction vs generalizing a b ws with
  | nil =>
    cases ws with
    | nil => rfl
    | cons w ws => simp at e
  | cons v vs ih =>
    cases ws with
    | nil => simp at e
    | cons w ws =>
      simp only [List.map_cons, List.cons.injEq, Prod.mk.injEq] at e
      obtain ⟨⟨e1, e2, e3⟩, e4⟩ := e
      obtain ⟨c1, c2, c3⟩ := hc
      obtain ⟨d1, d2, d3⟩ := hc'
      rw [← e2, ← e3] at d3
      have := ih c3 d3 (fun v hv => ho v (by simp [hv])) (fun v hv => ho' v (by simp [hv])) e4
      rw [this]
      have f1 := ho v (by simp)
      have f2 := ho' w (by simp)
      unfold DView.Fresh at f1 f2
      congr 1
      cases v; cases w
      simp only at *
      simp [e1, e2, e3, c1, c2, d1, d2, f1, f2]

/-! ### Hunks -/

/-- Two ways to cut off the lines of a section. -/
theorem section_unique {old old' : List Str} {l l' : Str} {more more' : List Str} (h : ∀ x ∈ old, SectionLine x) (h' : ∀ x ∈ old', SectionLine x)
    (hl : ¬ SectionLine l) (hl' : ¬ SectionLine l') (e : old ++ l :: more = old' ++ l' :: more') : old = old' ∧ l = l' ∧ more = more' :=
  first_unique (F := fun x => ¬ SectionLine x) (fun x hx => fun k => k (h x hx)) (fun x hx => fun k => k (h' x hx)) hl hl' e

theorem section_end {new new' after after' : List Str} (h : ∀ x ∈ new, SectionLine x) (h' : ∀ x ∈ new', SectionLine x)
    (ha : ∀ x, after.head? = some x → ¬ SectionLine x) (ha' : ∀ x, after'.head? = some x → ¬ SectionLine x) (e : new ++ after = new' ++ after') :
    new = new' ∧ after = after' := by
  induction new generalizing new' with
  | nil =>
    cases new' with
    | nil => exact ⟨rfl, e⟩
    | cons y new' => exact absurd (h' y (by simp)) (ha y (by simp only [List.nil_append] at e; rw [e]; rfl))
  | cons x new ih =>
    cases new' with
    | nil => exact absurd (h x (by simp)) (ha' x (by simp only [List.nil_append] at e; rw [← e]; rfl))
    | cons y new' =>
      simp only [List.cons_append, List.cons.injEq] at e
      obtain ⟨i1, i2⟩ := ih (fun x hx => h x (by simp [hx])) (fun x hx => h' x (by simp [hx])) e.2
      exact ⟨by rw [e.1, i1], i2⟩

theorem contextShown_det {ls : List Str} {hs hs' : List HView} {r r' : List Str} (h : ContextShown ls hs r) (h' : ContextShown ls hs' r') :
    hs = hs' ∧ r = r' := by
  induction h generalizing hs' r' with
  | stop ls h1 =>
    cases h' with
    | stop => exact ⟨rfl, rfl⟩
    | lone l ls g1 => exact absurd g1 (h1 l rfl)
    | dropped l l2 l3 old more hs rest g1 => exact absurd g1 (h1 l rfl)
    | hunk l l2 l3 old new after h hs rest g1 => exact absurd (star_line g1) (h1 l rfl)
  | lone l ls h1 h2 =>
    generalize hx : l :: ls = xs at h'
    cases h' with
    | stop _ g1 => exact absurd h1 (g1 l (by rw [← hx]; rfl))
    | lone => simp only [List.cons.injEq] at hx; exact ⟨rfl, hx.2⟩
    | dropped l' l2 l3 old more hs rest g1 g2 =>
      simp only [List.cons_append, List.cons.injEq] at hx
      exact absurd g2 (h2 l2 (by rw [hx.2]; rfl))
    | hunk l' l2 l3 old new after h hs rest g1 g2 =>
      simp only [List.cons_append, List.cons.injEq] at hx
      exact absurd (old_line g2) (h2 l2 (by rw [hx.2]; rfl))
  | dropped l l2 l3 old more hs rest h1 h2 h3 h4 h5 h6 ih =>
    generalize hx : l :: l2 :: old ++ l3 :: more = xs at h'
    cases h' with
    | stop _ g1 => exact absurd h1 (g1 l (by rw [← hx]; rfl))
    | lone l' ls g1 g2 =>
      simp only [List.cons_append, List.cons.injEq] at hx
      exact absurd h2 (g2 l2 (by rw [← hx.2]; rfl))
    | dropped l' l2' l3' old' more' hs' rest' g1 g2 g3 g4 g5 g6 =>
      simp only [List.cons_append, List.cons.injEq] at hx
      obtain ⟨_, _, hx⟩ := hx
      obtain ⟨_, rfl, rfl⟩ := section_unique h3 g3 h4 g4 hx
      exact ih g6
    | hunk l' l2' l3' old' new after h hs' rest' g1 g2 g3 g4 g5 =>
      simp only [List.cons_append, List.cons.injEq] at hx
      obtain ⟨_, _, hx⟩ := hx
      obtain ⟨_, rfl, _⟩ := section_unique h3 g3 h4 g4 hx
      exact absurd (new_line g5) h5
  | hunk l l2 l3 old new after h hs rest h1 h2 h3 h4 h5 h6 h7 h8 h9 h10 ih =>
    generalize hx : l :: l2 :: old ++ l3 :: (new ++ after) = xs at h'
    cases h' with
    | stop _ g1 => exact absurd (star_line h1) (g1 l (by rw [← hx]; rfl))
    | lone l' ls g1 g2 =>
      simp only [List.cons_append, List.cons.injEq] at hx
      exact absurd (old_line h2) (g2 l2 (by rw [← hx.2]; rfl))
    | dropped l' l2' l3' old' more' hs' rest' g1 g2 g3 g4 g5 g6 =>
      simp only [List.cons_append, List.cons.injEq] at hx
      obtain ⟨_, _, hx⟩ := hx
      obtain ⟨_, rfl, _⟩ := section_unique h3 g3 h4 g4 hx
      exact absurd (new_line h5) g5
    | hunk l' l2' l3' old' new' after' h' hs' rest' g1 g2 g3 g4 g5 g6 g7 g8 g9 g10 =>
      simp only [List.cons_append, List.cons.injEq] at hx
      obtain ⟨rfl, rfl, hx⟩ := hx
      obtain ⟨rfl, rfl, hy⟩ := section_unique h3 g3 h4 g4 hx
      obtain ⟨rfl, rfl⟩ := section_end h6 g6 h7 g7 hy
      have e1 := star_det h1 g1
      have e2 := old_det h2 g2
      have e3 := new_det h5 g5
      have hv : h.diffs = h'.diffs :=
        views_placed h9.2.1 (by rw [e2, e3]; exact g9.2.1) (fun v hv => (h9.2.2 v hv).1) (fun v hv => (g9.2.2 v hv).1) (paired_det h8 g8)
      have hh : h = h' := by
        have t1 := h9.1; have t2 := g9.1
        cases h; cases h'
        simp only at e1 e2 e3 hv t1 t2
        simp [e1, e2, e3, hv, t1, t2]
      subst hh
      obtain ⟨i1, i2⟩ := ih g10
      exact ⟨by rw [i1], i2⟩

/-! ### What is shown stands in the lines -/

theorem paired_stands {os ns : List Str} {vs : List DView} (h : Paired os ns vs) : SectionsStand vs os ns := by
  induction h with
  | done => exact .nil _ _
  | lost => exact .nil _ _
  | removed os os' ns v vs h1 h2 h3 h4 h5 ih =>
    obtain ⟨rfl, _⟩ := h1
    exact .cons v vs _ [] os' ns (by simp [DView.OldText, h2]) (by simp [DView.NewText, h2]) ih
  | added os ns ns' v vs h0 h1 h2 h3 h4 h5 ih =>
    obtain ⟨rfl, _⟩ := h1
    exact .cons v vs [] _ os ns' (by simp [DView.OldText, h2]) (by simp [DView.NewText, h2]) ih
  | changed os os' ns ns' v vs h1 h2 h3 h4 h5 h6 h7 ih =>
    obtain ⟨rfl, _⟩ := h3
    obtain ⟨rfl, _⟩ := h4
    exact .cons v vs _ _ os' ns' (by simp [DView.OldText, h5]) (by simp [DView.NewText, h5]) ih
  | unchanged os os' ns ns' v vs h1 h2 h3 h4 h5 ih =>
    obtain ⟨oc, nc, rfl, rfl, _, e, _⟩ := h1
    refine .cons v vs _ _ os' ns' ?_ ?_ ih
    · simp only [DView.OldText, h2]
      refine ⟨oc, rfl, ?_⟩
      rw [e]; simp; omega
    · simp only [DView.NewText, h2]
      refine ⟨nc.length, by rw [e]; simp, ?_⟩
      rw [e, List.drop_left, List.map_drop]

theorem contextShown_stands {ls : List Str} {hs : List HView} {rest : List Str} (h : ContextShown ls hs rest) :
    rest <:+ ls ∧ (hs ≠ [] → ∃ r, HunksStand ContextText hs ls r ∧ rest <:+ r) := by
  induction h with
  | stop ls h => exact ⟨List.suffix_refl _, fun h => absurd rfl h⟩
  | lone l ls => exact ⟨List.suffix_cons _ _, fun h => absurd rfl h⟩
  | dropped l l2 l3 old more hs rest h1 h2 h3 h4 h5 h6 ih =>
    refine ⟨ih.1.trans ⟨l :: l2 :: old, by simp⟩, fun hne => ?_⟩
    obtain ⟨r, i1, i2⟩ := ih.2 hne
    exact ⟨r, hunksStand_gap (l :: l2 :: old) i1 hne, i2⟩
  | hunk l l2 l3 old new after h hs rest h1 h2 h3 h4 h5 h6 h7 h8 h9 h10 ih =>
    have ht : ContextText h (l :: l2 :: old ++ l3 :: new) := ⟨l, l2, l3, old, new, rfl, h1, h2, h5, paired_stands h8⟩
    have e : l :: l2 :: old ++ l3 :: (new ++ after) = [] ++ ((l :: l2 :: old ++ l3 :: new) ++ after) := by simp
    refine ⟨ih.1.trans ⟨l :: l2 :: old ++ l3 :: new, by simp⟩, fun _ => ?_⟩
    rw [e]
    by_cases hne : hs = []
    · subst hne
      exact ⟨after, .cons [] _ after after h [] ht (.nil _), ih.1⟩
    · obtain ⟨r, i1, i2⟩ := ih.2 hne
      exact ⟨r, .cons [] _ after r h hs ht i1, i2⟩

end KompareDiff2
