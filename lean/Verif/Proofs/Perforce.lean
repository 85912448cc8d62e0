import Verif.Spec.Perforce
import Verif.Proofs.NormalDiff
import Verif.Proofs.Reading
/-
The parser on diffs written by Perforce.
-/
namespace KompareDiff2
open Spec Re

/-! ### The header line -/

/-- Lazy iteration over single characters: the shortest run first. -/
def lazy {α : Type} (p : Char → Bool) (k : Str → Option α) : Str → Option α
  | [] => k []
  | x :: s => (k (x :: s)).or (if p x then lazy p k s else none)

theorem starM_lazy {α : Type} (p : Char → Bool) (n : Nat) (s : Str) (c : Caps) (k : Str → Caps → Option α) (h : s.length < n) :
    starM (fun s c k => (Re.chr p).m s c k) false n s c k = lazy p (fun s => k s c) s := by
  induction n generalizing s with
  | zero => omega
  | succ n ih =>
    cases s with
    | nil => simp only [starM, lazy, Bool.false_eq_true, if_false, m_chr_nil]; cases k [] c <;> rfl
    | cons x s =>
      simp only [List.length_cons] at h
      simp only [starM, lazy, m_chr_cons, Bool.false_eq_true, if_false, List.length_cons]
      cases hk : k (x :: s) c with
      | some r => rfl
      | none =>
        simp only [Option.none_or]
        by_cases hp : p x
        · simp only [hp, if_true]
          rw [if_pos (by omega), ih s (by omega)]
        · simp [hp]

theorem m_lazy {α : Type} (p : Char → Bool) (s : Str) (c : Caps) (k : Str → Caps → Option α) :
    (Re.star false (.chr p)).m s c k = lazy p (fun s => k s c) s :=
  starM_lazy p _ s c k (by omega)

theorem lazy_run {α : Type} {p : Char → Bool} {k : Str → Option α} {t s : Str} {r : α} (ht : ∀ x ∈ t, p x = true)
    (hn : ∀ v u, t = v ++ u → u ≠ [] → k (u ++ s) = none) (hk : k s = some r) : lazy p k (t ++ s) = some r := by
  induction t with
  | nil => cases s <;> simp [lazy, hk]
  | cons x t ih =>
    have h0 := hn [] (x :: t) rfl (by simp)
    rw [List.cons_append] at h0
    rw [List.cons_append, lazy, h0, Option.none_or, if_pos (ht x (by simp))]
    exact ih (fun y hy => ht y (by simp [hy])) (fun v u e hu => hn (x :: v) u (by simp [e]) hu)

theorem sep_prefix {s w : Str} (h : str " - " <+: s ++ '#' :: w) : str " - " <+: s := by
  rcases s with _ | ⟨a, _ | ⟨b, _ | ⟨c, s⟩⟩⟩ <;> obtain ⟨t, e⟩ := h <;> simp [str] at e
  obtain ⟨rfl, rfl, rfl, _⟩ := e
  exact ⟨s, rfl⟩

/-- The separator is found after the revision, not before. -/
theorem sep_first {s ds rest v u : Str} (hs : ¬ str " - " <:+: s) (hd : ∀ x ∈ ds, IsDigit x) (e : s ++ '#' :: ds = v ++ u) (hu : u ≠ []) :
    ¬ str " - " <+: u ++ rest := by
  intro h
  rcases List.append_eq_append_iff.1 e with ⟨a', rfl, e'⟩ | ⟨c', rfl, rfl⟩
  · cases u with
    | nil => exact hu rfl
    | cons x u =>
      have hx : x ∈ '#' :: ds := by rw [e']; simp
      have := prefix_head h
      subst this
      rcases List.mem_cons.1 hx with h | h
      · exact absurd h (by decide)
      · exact absurd (hd _ h) (by unfold IsDigit; decide)
  · rw [List.append_assoc, List.cons_append] at h
    exact hs ((sep_prefix h).isInfix.trans ⟨v, [], by simp⟩)

theorem p4_match (a b : Str) (ha : '\n' ∉ a) (hb : '\n' ∉ b) 
    (hs : ∀ v u, a = v ++ u → u ≠ [] → ¬ str " - " <+: u ++ (str " - " ++ (b ++ str " ====\n"))) :
    ∃ c, reP4Header.full (str "==== " ++ a ++ str " - " ++ b ++ str " ====\n") = some c ∧ c.get 1 = a ∧ c.get 2 = b := by
  refine ⟨[(2, b), (1, a)], ?_, rfl, rfl⟩
  simp only [List.append_assoc, Re.full, reP4Header]
  rw [m_cat_cons, m_text_append, m_cat_cons, m_grp, dot, m_lazy]
  refine lazy_run (dot_ok ha) ?_ ?_
  · intro v u e hu
    rw [m_cat_cons, m_text, if_neg]
    rw [List.isPrefixOf_iff_prefix]
    exact hs v u e hu
  · rw [m_cat_cons, m_text_append, m_cat_cons, m_grp, m_lazy, take_len]
    refine lazy_run (dot_ok hb) ?_ ?_
    · intro v u e hu
      rw [m_cat_one, m_text]
      split
      · rename_i hp
        obtain ⟨t, ht⟩ := List.isPrefixOf_iff_prefix.1 hp
        rw [← ht]
        simp only [List.drop_left]
        rw [if_neg]
        rintro rfl
        have := congrArg List.length ht
        simp only [List.append_nil, List.length_append] at this
        exact hu (List.length_eq_zero_iff.1 (by omega))
      · rfl
    · have := m_text_append (str " ====\n") [] ((2, b) :: [(1, a)]) (fun s' c => if s' = [] then some c else none)
      rw [List.append_nil] at this
      rw [m_cat_one, take_len, this]; rfl

theorem noHash_ok {t : Str} (h : '#' ∉ t) : ∀ x ∈ t, (fun x => decide (x ≠ '#')) x = true := by
  intro x hx
  have : x ≠ '#' := fun e => h (e ▸ hx)
  simp [this]

/-- `[^#]+` up to `#`. -/
theorem m_noHash {α : Type} (t s : Str) (c : Caps) (k : Str → Caps → Option α) (r : α) (hne : t ≠ []) (ht : '#' ∉ t)
    (hk : k ('#' :: s) c = some r) : (many1 reNoHash).m (t ++ '#' :: s) c k = some r := by
  cases t with
  | nil => exact absurd rfl hne
  | cons x t =>
    have hx := noHash_ok ht x (by simp)
    rw [m_many1, reNoHash, List.cons_append, m_chr_cons, if_pos hx, m_many_chr]
    refine greedy_run (fun y hy => noHash_ok ht y (by simp [hy])) ?_ hk
    intro y hy
    simp only [List.head?_cons, Option.some.injEq] at hy
    subst hy; decide

theorem m_digits_end (ds : Str) (c : Caps) (h : Digits ds) (n : Nat) :
    (Re.grp n (many1 digit)).m ds c (fun s' c => if s' = [] then some c else none) = some ((n, ds) :: c) := by
  obtain ⟨hne, hd⟩ := h
  cases ds with
  | nil => exact absurd rfl hne
  | cons x ds =>
    have hc : ∀ y, IsDigit y → (fun x => decide ('0' ≤ x) && decide (x ≤ '9')) y = true := by
      intro y hy; simpa [IsDigit] using hy
    rw [m_grp, m_many1, digit, m_chr_cons, if_pos (hc x (hd x (by simp))), m_many_chr]
    have := greedy_run (p := fun x => decide ('0' ≤ x) && decide (x ≤ '9'))
      (k := fun s' => if s' = [] then some ((n, (x :: ds).take ((x :: ds).length - s'.length)) :: c) else none) (t := ds) (s := [])
      (r := (n, x :: ds) :: c) (fun y hy => hc y (hd y (by simp [hy]))) (by simp) (by simp)
    rw [List.append_nil] at this
    exact this

theorem p4Source_match (s ds : Str) (hs : s ≠ []) (hh : '#' ∉ s) (hd : Digits ds) :
    ∃ c, reP4Source.full (s ++ '#' :: ds) = some c ∧ c.get 1 = s := by
  refine ⟨[(2, ds), (1, s)], ?_, rfl⟩
  rw [Re.full, reP4Source, m_cat_cons, m_grp]
  refine m_noHash s ds [] _ _ hs hh ?_
  rw [take_len, m_cat_cons, m_lit_cons, if_pos rfl, m_cat_one]
  exact m_digits_end ds _ hd 2

theorem p4Destination_match (s : Str) (r : Option Nat) (hs : s ≠ []) (hh : '#' ∉ s) :
    ∃ c, reP4Destination.full (s ++ revisionText (some r)) = some c ∧ c.get 1 = s := by
  cases r with
  | none =>
    refine ⟨[(2, []), (1, s)], ?_, rfl⟩
    rw [Re.full, reP4Destination, m_cat_cons, m_grp, revisionText]
    refine m_noHash s [] [] _ _ hs hh ?_
    rw [take_len, m_cat_cons, m_lit_cons, if_pos rfl, m_cat_one]
    rfl
  | some n =>
    refine ⟨[(2, decNat n), (1, s)], ?_, rfl⟩
    rw [Re.full, reP4Destination, m_cat_cons, m_grp, revisionText]
    refine m_noHash s (decNat n) [] _ _ hs hh ?_
    rw [take_len, m_cat_cons, m_lit_cons, if_pos rfl, m_cat_one, m_grp, m_alt]
    rw [m_eps, if_neg (decNat_ne_nil n), Option.none_or]
    exact m_digits_end (decNat n) [(1, s)] (decNat_digits n) 2

/-- A name without a revision is not recognised. -/
theorem p4Destination_none (s : Str) (hh : '#' ∉ s) : reP4Destination.full s = none := by
  rw [Re.full_none]
  simp only [reP4Destination, lang_cat_cons, lang_cat_one, lang_lit]
  rintro ⟨_, _, rfl, _, _, _, rfl, rfl, _⟩
  simp at hh

/-- The first occurrence of a text. -/
theorem first_occurrence {w s : Str} (h : w <:+: s) : ∃ a b, s = a ++ (w ++ b) ∧ ∀ v u, a = v ++ u → u ≠ [] → ¬ w <+: u ++ (w ++ b) := by
  induction s with
  | nil =>
    have : w = [] := List.eq_nil_of_infix_nil h
    subst this
    exact ⟨[], [], rfl, fun v u e hu => absurd (List.append_eq_nil_iff.1 e.symm).2 hu⟩
  | cons x s ih =>
    by_cases hp : w <+: x :: s
    · obtain ⟨b, e⟩ := hp
      exact ⟨[], b, by simp [e], fun v u e hu => absurd (List.append_eq_nil_iff.1 e.symm).2 hu⟩
    · rcases List.infix_cons_iff.1 h with h | h
      · exact absurd h hp
      · obtain ⟨a, b, e, hm⟩ := ih h
        refine ⟨x :: a, b, by simp [e], ?_⟩
        intro v u e' hu
        cases v with
        | nil =>
          rw [List.nil_append] at e'
          rw [← e', List.cons_append, ← e]; exact hp
        | cons y v =>
          simp only [List.cons_append, List.cons.injEq] at e'
          exact hm v u e'.2 hu

/-- A text after which something other than a revision follows is not recognised as a name. -/
theorem p4Destination_long (b ds r : Str) (hb : '#' ∉ b) (hr : ∀ x s, r = x :: s → ¬ IsDigit x) (hd : ∀ x ∈ ds, IsDigit x) (hne : r ≠ []) :
    reP4Destination.full (b ++ '#' :: (ds ++ r)) = none := by
  rw [Re.full_none]
  simp only [reP4Destination, lang_cat_cons, lang_cat_one, lang_lit, lang_grp, lang_alt, lang_digits]
  rintro ⟨n, _, e, hn, _, t, rfl, rfl, ht⟩
  have hn' : '#' ∉ n := by
    intro hm
    have := ((lang_many1_chr _ _).1 hn).2 _ hm
    simp at this
  have e2 : b = n ∧ ds ++ r = t := by
    have := congrArg (fun l : Str => (l.takeWhile (fun x => decide (x ≠ '#')), l.dropWhile (fun x => decide (x ≠ '#')))) e
    have key : ∀ (p q : Str), '#' ∉ p → (p ++ '#' :: q).takeWhile (fun x => decide (x ≠ '#')) = p ∧
        (p ++ '#' :: q).dropWhile (fun x => decide (x ≠ '#')) = '#' :: q := by
      intro p q hp
      induction p with
      | nil => simp
      | cons x p ih =>
        have hx : x ≠ '#' := fun h => hp (by simp [h])
        have := ih (fun h => hp (by simp [h]))
        simpa [hx] using this
    simp only [List.singleton_append, Prod.mk.injEq] at this
    rw [(key b _ hb).1, (key b _ hb).2, (key n _ hn').1, (key n _ hn').2] at this
    simpa using this
  have hall : ∀ x ∈ ds ++ r, IsDigit x := by
    rw [e2.2]
    rcases ht with rfl | ⟨_, h⟩
    · simp
    · exact h
  cases r with
  | nil => exact hne rfl
  | cons x r => exact hr x r rfl (hall x (by simp))

/-- A name with the separator before its revision hides both names. -/
def Spec.P4File.split (f : P4File) : Prop := str " - " <:+: f.src

instance (f : P4File) : Decidable f.split := inferInstanceAs (Decidable (_ <:+: _))

/-- The name of the old file as the parser sees it. -/
def Spec.P4File.seenSrc (f : P4File) : Str := if f.split then [] else f.src

/-- The name of the new file as the parser sees it. -/
def Spec.P4File.seenDst (f : P4File) : Str := if f.dstRevision = none ∨ f.split then [] else f.dst

theorem revisionText_ok (r : Option (Option Nat)) : '\n' ∉ revisionText r := by
  rcases r with _ | _ | n
  · simp [revisionText]
  · simp [revisionText]
  · simp [revisionText, decNat_noNewline]

theorem p4Source_none (s : Str) (hh : '#' ∉ s) : reP4Source.full s = none := by
  rw [Re.full_none]
  simp only [reP4Source, lang_cat_cons, lang_cat_one, lang_lit]
  rintro ⟨_, _, rfl, _, _, _, rfl, rfl, _⟩
  simp at hh

theorem p4_header_match (f : P4File) (ok : f.Ok) : ∃ c, reP4Header.full f.header = some c ∧ p4Model c = DModel.new f.seenSrc f.seenDst := by
  by_cases hsp : f.split
  · obtain ⟨a, b, e, hm⟩ := first_occurrence hsp
    have ha : '\n' ∉ a ∧ '#' ∉ a := by
      have h1 := ok.src.2.1; have h2 := ok.src.2.2
      rw [e] at h1 h2
      simp only [List.mem_append, not_or] at h1 h2
      exact ⟨h2.1, h1.1⟩
    have hb : '\n' ∉ b ∧ '#' ∉ b := by
      have h1 := ok.src.2.1; have h2 := ok.src.2.2
      rw [e] at h1 h2
      simp only [List.mem_append, not_or] at h1 h2
      exact ⟨h2.2.2, h1.2.2⟩
    obtain ⟨c, h1, h2, h3⟩ := p4_match a (b ++ '#' :: (decNat f.srcRevision ++ (str " - " ++ (f.dst ++ revisionText f.dstRevision)))) ha.1
      (by
        simp only [List.mem_append, List.mem_cons, not_or]
        exact ⟨hb.1, by decide, decNat_noNewline _, by decide, ok.dst.2.2, revisionText_ok _⟩)
      (by
        intro v u e' hu hp
        apply hm v u e' hu
        apply List.prefix_of_prefix_length_le hp (l₂ := u ++ (str " - " ++ b))
        · simp
        · simp; omega)
    refine ⟨c, ?_, ?_⟩
    · rw [← h1]; congr 1; simp [P4File.header, e]
    · rw [p4Model, h2, h3, p4Source_none a ha.2, p4Destination_long b (decNat f.srcRevision) _ hb.2 _ (decNat_isDigit _)]
      · simp [P4File.seenSrc, P4File.seenDst, hsp]
      · simp [str]
      · intro x s ex
        have : x = ' ' := by have := congrArg List.head? ex; simpa [str] using this.symm
        subst this; unfold IsDigit; decide
  · obtain ⟨c, h1, h2, h3⟩ := p4_match (f.src ++ '#' :: decNat f.srcRevision) (f.dst ++ revisionText f.dstRevision)
      (by simp [ok.src.2.2, decNat_noNewline]) (by simp [ok.dst.2.2, revisionText_ok])
      (fun v u e hu => sep_first hsp (decNat_isDigit _) e hu)
    refine ⟨c, h1, ?_⟩
    obtain ⟨cs, s1, s2⟩ := p4Source_match f.src (decNat f.srcRevision) ok.src.1 ok.src.2.1 (decNat_digits _)
    rw [p4Model, h2, h3, s1]
    simp only [s2]
    unfold P4File.seenSrc P4File.seenDst
    cases hr : f.dstRevision with
    | none => simp [revisionText, p4Destination_none f.dst ok.dst.2.1, hsp]
    | some r =>
      obtain ⟨cd, d1, d2⟩ := p4Destination_match f.dst r ok.dst.1 ok.dst.2.1
      simp [d1, d2, hsp]

theorem p4_header_none {l : Str} (h : ¬ str "==== " <+: l) : reP4Header.full l = none := full_text_cat_none (notPrefix_bool h)

/-! ### One file -/

/-- The lines of the changes after folding the "no newline" remarks. -/
def Spec.P4Body.clean : P4Body → List Str
  | .unified hs => hs.flatMap UHunk.clean
  | .context hs => hs.flatMap CHunk.render
  | .normal cs => cs.flatMap NCmd.render

/-- The hunk parser of a format. -/
def kindHunks : P4Kind → PState → Res PState
  | .unified => unifiedHunks
  | .context => contextHunks
  | .normal => normalHunks

/-- The lines that end the changes of a file, whatever the format. -/
structure P4After (rest : List Str) : Prop where
  unified : AfterHunks rest
  context : CAfterHunks rest
  normal : NAfter rest
  check : ∀ st : PState, st.rest = rest → checkHeader reP4Header st = st

theorem filter_ncmds (cs : List NCmd) : (cs.flatMap (fun c => c.view.diffs)).filter (fun d => d.type ≠ .Unchanged) = ncmdDiffs cs := by
  unfold ncmdDiffs
  apply List.filter_eq_self.2
  intro d hd
  obtain ⟨c, _, hc⟩ := List.mem_flatMap.1 hd
  simp only [NCmd.view, List.mem_singleton] at hc
  subst hc
  simpa using NCmd.type_ne c

theorem p4_body_ok (b : P4Body) (ok : b.Ok) (rest : List Str) (hr : P4After rest) (st : PState) (e : st.rest = b.clean ++ rest)
    (p : Parsed (fun _ => True) st.heap st.cur) :
    ∃ st', kindHunks b.kind st = Res.ok st' ∧ st'.rest = rest ∧ st'.models = st.models ∧ st'.malformed = st.malformed ∧
      (b.kind = .normal → st'.single = st.single) ∧ st.heap.Ext st'.heap ∧ Parsed (fun _ => True) st'.heap st'.cur ∧
      st'.cur.view st'.heap = { st.cur.view st.heap with
        hunks := (st.cur.view st.heap).hunks ++ b.hunks,
        differences := (st.cur.view st.heap).differences ++ (b.hunks.flatMap HView.diffs).filter (fun d => d.type ≠ .Unchanged) } := by
  cases b with
  | unified hs =>
    have hlen : hs.length < st.rest.length + 1 := by
      have : hs.length ≤ (hs.flatMap UHunk.clean).length := by
        clear ok e
        induction hs with
        | nil => simp
        | cons h hs ih => simp only [List.flatMap_cons, List.length_append, List.length_cons, UHunk.clean]; omega
      rw [e]
      simp only [P4Body.clean, List.length_append]; omega
    obtain ⟨st', g1, g2, g3, g4, g5, g6, g7⟩ := hunks_ok hs ok rest hr.unified _ hlen st e p
    refine ⟨st', g1, g2, g3, g4, by simp [P4Body.kind], g5, g6, ?_⟩
    rw [g7]
    simp [P4Body.hunks, hunkDiffs, List.flatMap_map]
  | context hs =>
    have hlen : hs.length < st.rest.length + 1 := by
      have : hs.length ≤ (hs.flatMap CHunk.render).length := by
        clear ok e
        induction hs with
        | nil => simp
        | cons h hs ih => simp only [List.flatMap_cons, List.length_append, List.length_cons, CHunk.render]; omega
      rw [e]
      simp only [P4Body.clean, List.length_append]; omega
    obtain ⟨st', g1, g2, g3, g4, g5, g6, g7⟩ := chunks_ok hs ok rest hr.context _ hlen st e p
    refine ⟨st', g1, g2, g3, g4, by simp [P4Body.kind], g5, g6, ?_⟩
    rw [g7]
    simp [P4Body.hunks, chunkDiffs, List.flatMap_map]
  | normal cs =>
    have hlen : cs.length < st.rest.length + 1 := by
      have := render_length cs
      rw [e]
      simp only [P4Body.clean, List.length_append]; omega
    obtain ⟨st', g1, g2, g3, g4, g5, _, g6, g7, g8⟩ := ncmds_ok cs ok rest hr.normal _ hlen st e p
    refine ⟨st', g1, g2, g3, g4, fun _ => g5, g6, g7, ?_⟩
    rw [g8, ← filter_ncmds]
    simp [P4Body.hunks, List.flatMap_map]

/-- The lines of a file diff after folding. -/
def Spec.P4File.clean (f : P4File) : List Str := f.preamble.map (· ++ ['\n']) ++ f.header :: f.body.clean

theorem hasChange_iff (hs : List HView) :
    hasChange hs = decide (0 < ((hs.flatMap HView.diffs).filter (fun d => d.type ≠ .Unchanged)).length) := by
  rw [Bool.eq_iff_iff]
  simp only [hasChange, List.any_eq_true, decide_eq_true_eq]
  constructor
  · rintro ⟨h, hh, d, hd, ht⟩
    exact List.length_pos_iff_exists_mem.2 ⟨d, List.mem_filter.2 ⟨List.mem_flatMap.2 ⟨h, hh, hd⟩, by simpa using ht⟩⟩
  · intro h
    obtain ⟨d, hd⟩ := List.exists_mem_of_length_pos h
    obtain ⟨h1, h2⟩ := List.mem_filter.1 hd
    obtain ⟨h, hh, hd⟩ := List.mem_flatMap.1 h1
    exact ⟨h, hh, d, hd, by simpa using h2⟩

theorem p4_file_ok (f : P4File) (ok : f.Ok) (st : PState) (rest : List Str) (hr : P4After rest) (e : st.rest = f.clean ++ rest)
    (vs : List MView) (inv : FilesInv st vs) :
    ∃ st1 st2, p4Header st st.rest = (st1, true) ∧ kindHunks f.body.kind st1 = Res.ok st2 ∧
      ∃ st3, checkHeader reP4Header st2.keepModel = st3 ∧ st3.rest = rest ∧ st3.malformed = st.malformed ∧
        (f.body.kind = .normal → st3.single = st.single) ∧
        FilesInv st3 (vs ++ if hasChange f.body.hunks then [p4View f.seenSrc f.seenDst f.body.hunks] else []) := by
  obtain ⟨c, hm, hc⟩ := p4_header_match f ok
  have h1 : p4Header st st.rest = ({ st with rest := f.body.clean ++ rest, cur := DModel.new f.seenSrc f.seenDst }, true) := by
    rw [e]
    simp only [P4File.clean, List.append_assoc, List.cons_append]
    rw [p4Header_skip]
    · simp only [p4Header, hm, hc]
    · intro l hl
      obtain ⟨t, ht, rfl⟩ := List.mem_map.1 hl
      exact full_text_cat_none (not_prefix_newline (by decide) (ok.between t ht).2.1)
  have hb : (DModel.new f.seenSrc f.seenDst).Blank := new_blank _ _
  obtain ⟨st2, g1, g2, g3, g4, gs, g5, g6, g7⟩ := p4_body_ok f.body ok.body rest hr
    { st with rest := f.body.clean ++ rest, cur := DModel.new f.seenSrc f.seenDst } rfl (hb.parsed _)
  refine ⟨_, st2, h1, g1, st2.keepModel, ?_, ?_, ?_, ?_, ?_⟩
  · apply hr.check
    unfold PState.keepModel
    split <;> exact g2
  · unfold PState.keepModel
    split <;> exact g2
  · unfold PState.keepModel
    split <;> exact g4
  · intro hk
    unfold PState.keepModel
    split <;> exact gs hk
  · have hview : st2.cur.view st2.heap = p4View f.seenSrc f.seenDst f.body.hunks := by
      rw [g7]
      simp only [DModel.view, p4View, hb.hunks, hb.differences, hb.initial.1, List.map_nil, List.nil_append]
      simp [DModel.new, DModel.setSourceFile, DModel.setDestinationFile]
    have hcount : hasChange f.body.hunks = decide (0 < st2.cur.differences.length) := by
      have := congrArg (fun v => v.differences.length) hview
      simp only [DModel.view, p4View, List.length_map] at this
      rw [hasChange_iff, this]
    have hold : FilesInv st2 vs := by
      constructor
      · intro m hm
        rw [g3] at hm
        exact (inv.parsed m hm).ext g5
      · rw [g3, ← inv.views]
        apply List.map_congr_left
        intro m hm
        exact (inv.parsed m hm).view_ext g5
    unfold PState.keepModel
    rw [hcount]
    by_cases hc : 0 < st2.cur.differences.length
    · rw [if_pos hc]
      simp only [hc, decide_true, if_true]
      constructor
      · intro m hm
        simp only [List.mem_append, List.mem_singleton] at hm
        rcases hm with hm | rfl
        · exact hold.parsed m hm
        · exact g6
      · simp only [List.map_append, List.map_cons, List.map_nil, hold.views, hview]
    · rw [if_neg hc]
      simp only [hc, decide_false, Bool.false_eq_true, if_false, List.append_nil]
      exact hold

/-! ### All files -/

theorem p4After_of_head {l : Str} {ls : List Str} (h1 : l ≠ []) (h2 : (str "@@ -").isPrefixOf l = false)
    (h3 : (reContextLine.full l).isSome = false) (h4 : reContextHunkHeader1.full l = none) (h5 : reNormalBodyRemoved.full l = none)
    (h6 : reNormalBodyAdded.full l = none) (h7 : ∀ x, l.head? = some x → ¬ IsDigit x)
    (h8 : ∀ st : PState, st.rest = l :: ls → checkHeader reP4Header st = st) : P4After (l :: ls) := by
  refine ⟨⟨by simpa using h1, ?_⟩, ⟨?_, ?_⟩, ⟨?_, ?_, ?_⟩, h8⟩ <;>
  · intro x hx
    simp only [List.head?_cons, Option.some.injEq] at hx
    subst hx
    first | assumption | exact command_none h7

theorem p4After_nil : P4After [] :=
  ⟨⟨by simp, by simp⟩, ⟨by simp, by simp⟩, NAfter.nil, fun st hst => by simp [checkHeader, hst]⟩

theorem p4After_header (f : P4File) (ok : f.Ok) (rest : List Str) : P4After (f.header :: rest) := by
  obtain ⟨c, hm, _⟩ := p4_header_match f ok
  have e : ∃ s, f.header = '=' :: '=' :: s := ⟨_, by simp only [P4File.header, str]; rfl⟩
  obtain ⟨s, e⟩ := e
  refine p4After_of_head (by rw [e]; simp) (by rw [e]; rfl) (section_none_of ⟨'=', s, e, by decide⟩) (stars_none (by rw [e]; rfl))
    (by rw [e]; exact body_none rfl) (by rw [e]; exact body_none rfl) ?_ ?_
  · intro x hx
    rw [e] at hx
    simp only [List.head?_cons, Option.some.injEq] at hx
    subst hx; unfold IsDigit; decide
  · intro st hst
    simp [checkHeader, hst, hm]

theorem p4After_separator {t : Str} (h : SeparatorLine t) (rest : List Str) : P4After ((t ++ ['\n']) :: rest) := by
  have e : ∃ x s, t ++ ['\n'] = x :: s ∧ (x = 'I' ∨ x = 'd' ∨ x = '-') := by
    rcases h with ⟨u, rfl⟩ | ⟨u, rfl⟩ | ⟨u, rfl⟩
    · exact ⟨'I', _, rfl, .inl rfl⟩
    · exact ⟨'d', _, rfl, .inr (.inl rfl)⟩
    · exact ⟨'-', _, rfl, .inr (.inr rfl)⟩
  obtain ⟨h1, h2⟩ := separator_after h
  obtain ⟨x, s, e, hx⟩ := e
  refine p4After_of_head (by simp) (by rw [e]; rcases hx with rfl | rfl | rfl <;> rfl) h1 h2
    (by rw [e]; rcases hx with rfl | rfl | rfl <;> exact body_none rfl) (by rw [e]; rcases hx with rfl | rfl | rfl <;> exact body_none rfl)
    ?_ (fun st hst => separator_check h _ st _ hst)
  intro y hy
  rw [e] at hy
  simp only [List.head?_cons, Option.some.injEq] at hy
  subst hy
  rcases hx with rfl | rfl | rfl <;> unfold IsDigit <;> decide

theorem p4After_file (f : P4File) (ok : f.Ok) (hs : ∀ t ts, f.preamble = t :: ts → SeparatorLine t) (rest : List Str) :
    P4After (f.clean ++ rest) := by
  cases hp : f.preamble with
  | nil =>
    have e : f.clean ++ rest = f.header :: (f.body.clean ++ rest) := by simp [P4File.clean, hp]
    rw [e]; exact p4After_header f ok _
  | cons t ts =>
    have e : f.clean ++ rest = (t ++ ['\n']) :: (ts.map (· ++ ['\n']) ++ (f.header :: f.body.clean) ++ rest) := by simp [P4File.clean, hp]
    rw [e]; exact p4After_separator (hs t ts hp) _

theorem p4After_trailer (tr : List Str) (hs : ∀ t ts, tr = t :: ts → SeparatorLine t) : P4After (tr.map (· ++ ['\n'])) := by
  cases tr with
  | nil => exact p4After_nil
  | cons t ts => exact p4After_separator (hs t ts rfl) _

/-- What is seen of a file. -/
def Spec.P4File.seen (f : P4File) : MView := p4View f.seenSrc f.seenDst f.body.hunks

/-- The file has a change. -/
def Spec.P4File.changes (f : P4File) : Bool := hasChange f.body.hunks

theorem p4_files_ok (k : P4Kind) (header : PState → Res (PState × Bool)) (hh : ∀ st, header st = Res.ok (p4Header st st.rest))
    (fs : List P4File) (ok : ∀ f ∈ fs, f.Ok ∧ f.body.kind = k)
    (later : ∀ f fs', fs = f :: fs' → ∀ g ∈ fs', ∀ t ts, g.preamble = t :: ts → SeparatorLine t)
    (tr : List Str) (ht : ∀ t ∈ tr, P4Between t) (hts : ∀ t ts, tr = t :: ts → SeparatorLine t)
    (n : Nat) (hn : fs.length < n) (st : PState) (vs : List MView) (inv : FilesInv st vs)
    (e : st.rest = fs.flatMap P4File.clean ++ tr.map (· ++ ['\n'])) :
    ∃ st', fileLoop header (kindHunks k) reP4Header n st = Res.ok st' ∧ st'.malformed = st.malformed ∧
      (k = .normal → st'.single = st.single) ∧ FilesInv st' (vs ++ (fs.filter P4File.changes).map P4File.seen) := by
  induction fs generalizing n st vs with
  | nil =>
    cases n with
    | zero => simp at hn
    | succ n =>
      simp only [List.flatMap_nil, List.nil_append] at e
      have hend : p4Header st st.rest = ({ st with rest := [] }, false) := by
        have := p4Header_skip st (tr.map (· ++ ['\n'])) [] (by
          intro l hl
          obtain ⟨t, h, rfl⟩ := List.mem_map.1 hl
          exact full_text_cat_none (not_prefix_newline (by decide) (ht t h).2.1))
        rw [List.append_nil] at this
        rw [e, this]; rfl
      refine ⟨{ st with rest := [] }, ?_, rfl, fun _ => rfl, ?_⟩
      · simp [fileLoop, hh, hend]
      · simp only [List.filter_nil, List.map_nil, List.append_nil]
        exact ⟨inv.parsed, inv.views⟩
  | cons f fs ih =>
    cases n with
    | zero => simp at hn
    | succ n =>
      simp only [List.length_cons] at hn
      have hafter : P4After (fs.flatMap P4File.clean ++ tr.map (· ++ ['\n'])) := by
        cases fs with
        | nil => simpa using p4After_trailer tr hts
        | cons f' fs =>
          rw [List.flatMap_cons, List.append_assoc]
          exact p4After_file f' (ok f' (by simp)).1 (later f _ rfl f' (by simp)) _
      obtain ⟨hfo, hfk⟩ := ok f (by simp)
      obtain ⟨st1, st2, h1, h2, st3, h3, h4, h5, h5s, h6⟩ := p4_file_ok f hfo st _ hafter
        (by rw [e, List.flatMap_cons, List.append_assoc]) vs inv
      rw [hfk] at h2 h5s
      obtain ⟨st', g1, g2, g3, g4⟩ := ih (fun f hf => ok f (by simp [hf]))
        (by
          intro k ks hk k' hk' t ts ht
          exact later f fs rfl k' (by rw [hk]; simp [hk']) t ts ht) n (by omega) st3 _ h6 h4
      refine ⟨st', ?_, by rw [g2, h5], fun hk => by rw [g3 hk, h5s hk], ?_⟩
      · simp only [fileLoop, hh, h1, Res.bind_ok, Bool.true_eq_false, if_false, h2, h3]
        exact g1
      · rw [List.append_assoc] at g4
        have hc' : f.changes = hasChange f.body.hunks := rfl
        by_cases hc : f.changes
        · have hc2 := hc; rw [hc'] at hc2
          simpa [hc, hc2, P4File.seen] using g4
        · have hc2 := hc; rw [hc'] at hc2
          simpa [hc, hc2] using g4

/-! ### The whole diff -/

/-- The lines of a diff after folding. -/
def Spec.P4Diff.clean (d : P4Diff) : List Str := d.files.flatMap P4File.clean ++ d.trailer.map (· ++ ['\n'])

theorem P4Body.cleans (b : P4Body) (ok : b.Ok) : Cleans b.render b.clean := by
  cases b with
  | unified hs => exact Cleans.flatMap _ (fun h hh => UHunk.cleans h (ok h hh))
  | context hs =>
    apply Cleans.id
    intro l hl
    obtain ⟨h, hh, hl⟩ := List.mem_flatMap.1 hl
    exact (CHunk.lines_ok h (ok h hh) l hl).1.plain
  | normal cs =>
    apply Cleans.id
    intro l hl
    exact notPrefix_bool (ncmds_lines cs ok l hl).1.quiet.2.2.1

theorem between_cleans (ts : List Str) (h : ∀ t ∈ ts, P4Between t) : Cleans (ts.map (· ++ ['\n'])) (ts.map (· ++ ['\n'])) := by
  apply Cleans.id
  intro l hl
  obtain ⟨t, ht, rfl⟩ := List.mem_map.1 hl
  exact not_prefix_newline (by decide) (h t ht).2.2.1

theorem P4File.cleans (f : P4File) (ok : f.Ok) : Cleans f.render f.clean :=
  Cleans.append (between_cleans _ ok.between) (Cleans.cons (by simp [P4File.header, str, List.isPrefixOf]) (P4Body.cleans f.body ok.body))

theorem P4Diff.cleans (k : P4Kind) (d : P4Diff) (ok : d.Ok k) : Cleans d.render d.clean :=
  Cleans.append (Cleans.flatMap _ (fun f hf => P4File.cleans f (ok.files f hf).1)) (between_cleans _ ok.trailer.1)

theorem P4Body.whole (b : P4Body) (ok : b.Ok) : ∀ l ∈ b.render, WholeLine l := by
  cases b with
  | unified hs =>
    intro l hl
    obtain ⟨h, hh, hl⟩ := List.mem_flatMap.1 hl
    exact UHunk.render_lines h (ok h hh) l hl
  | context hs =>
    intro l hl
    obtain ⟨h, hh, hl⟩ := List.mem_flatMap.1 hl
    exact (CHunk.lines_ok h (ok h hh) l hl).2
  | normal cs => exact fun l hl => (ncmds_lines cs ok l hl).2

theorem P4Diff.whole (k : P4Kind) (d : P4Diff) (ok : d.Ok k) : ∀ l ∈ d.render, WholeLine l := by
  intro l hl
  rcases List.mem_append.1 hl with hl | hl
  · obtain ⟨f, hf, hl⟩ := List.mem_flatMap.1 hl
    have hfo := (ok.files f hf).1
    rcases List.mem_append.1 hl with hl | hl
    · obtain ⟨t, ht, rfl⟩ := List.mem_map.1 hl
      exact ⟨t, (hfo.between t ht).1, rfl⟩
    · rcases List.mem_cons.1 hl with rfl | hl
      · refine ⟨str "==== " ++ (f.src ++ '#' :: decNat f.srcRevision) ++ str " - " ++ (f.dst ++ revisionText f.dstRevision) ++ str " ====", ?_, ?_⟩
        · simp only [List.mem_append, List.mem_cons, not_or]
          exact ⟨⟨⟨⟨by decide, hfo.src.2.2, by decide, decNat_noNewline _⟩, by decide⟩, hfo.dst.2.2, revisionText_ok _⟩, by decide⟩
        · simp [P4File.header, str]
      · exact P4Body.whole f.body hfo.body l hl
  · obtain ⟨t, ht, rfl⟩ := List.mem_map.1 hl
    exact ⟨t, (ok.trailer.1 t ht).1, rfl⟩

theorem P4Diff.generator (k : P4Kind) (d : P4Diff) (ok : d.Ok k) (hne : d.files ≠ []) : determineGenerator d.render = .Perforce := by
  rw [(generator_iff d.render).2]
  cases hf : d.files with
  | nil => exact absurd hf hne
  | cons f fs =>
    refine ⟨f.preamble.map (· ++ ['\n']), f.header, f.body.render ++ (fs.flatMap P4File.render ++ d.trailer.map (· ++ ['\n'])), ?_, ?_, ?_⟩
    · simp [P4Diff.render, hf, P4File.render]
    · simp only [P4File.header, List.append_assoc]; exact List.prefix_append _ _
    · intro l hl h
      obtain ⟨t, ht, rfl⟩ := List.mem_map.1 hl
      exact ok.first f fs hf t ht (prefix_newline (by decide) (List.isPrefixOf_iff_prefix.2 h))

/-- The format of the parser for a kind. -/
def kindFormat : P4Kind → Format
  | .unified => .Unified
  | .context => .Context
  | .normal => .Normal

theorem p4_line_none {l : Str} (h1 : ¬ str "@@" <+: l) (h2 : ¬ List.replicate 15 '*' <+: l) (h3 : ∀ x s, l = x :: s → ¬ IsDigit x)
    (h4 : ∀ x y s, l = x :: y :: s → x = 'a' ∨ x = 'c' ∨ x = 'd' → ¬ IsDigit y) : lineFormat l (formatPatterns .Perforce) = none := by
  have hU : reFmtUnifiedP4.atStart l = false := by rw [reFmtUnifiedP4, atStart_text]; exact notPrefix_bool h1
  have hC : reFmtContextP4.atStart l = false := by rw [reFmtContextP4, atStart_text]; exact notPrefix_bool h2
  have hN : reFmtNormalP4.atStart l = false := atStart_many1_false (fun x u e => not_digit_class (h3 x u e))
  simp [formatPatterns, lineFormat, hU, hC, hN, rcs_false h4]

theorem p4_between_none {t : Str} (h : P4Between t) : lineFormat (t ++ ['\n']) (formatPatterns .Perforce) = none := by
  obtain ⟨h0, h1, h2, h3, h4, h5, h6⟩ := h
  apply p4_line_none
  · exact fun h => h3 (prefix_newline (by decide) (List.isPrefixOf_iff_prefix.2 h))
  · exact fun h => h4 (prefix_newline (by decide) (List.isPrefixOf_iff_prefix.2 h))
  · intro x s e
    cases t with
    | nil => simp only [List.nil_append, List.cons.injEq] at e; rw [← e.1]; exact nl_noDigit
    | cons y t => simp only [List.cons_append, List.cons.injEq] at e; rw [← e.1]; exact h5 y t rfl
  · intro x y s e hx
    cases t with
    | nil => simp at e
    | cons x' t =>
      simp only [List.cons_append, List.cons.injEq] at e
      obtain ⟨rfl, e⟩ := e
      cases t with
      | nil => simp only [List.nil_append, List.cons.injEq] at e; rw [← e.1]; exact nl_noDigit
      | cons y' t =>
        simp only [List.cons_append, List.cons.injEq] at e
        rw [← e.1]; exact h6 x' y' t rfl hx

theorem p4_header_format (f : P4File) : lineFormat f.header (formatPatterns .Perforce) = none := by
  have e : ∃ s, f.header = '=' :: '=' :: s := ⟨_, by simp only [P4File.header, str]; rfl⟩
  obtain ⟨s, e⟩ := e
  rw [e]
  apply p4_line_none
  · exact fun h => absurd (prefix_head h) (by decide)
  · exact fun h => absurd (prefix_head (p := List.replicate 14 '*') h) (by decide)
  · intro x s' e; simp only [List.cons.injEq] at e; rw [← e.1]; unfold IsDigit; decide
  · intro x y s' e hx; simp only [List.cons.injEq] at e; rw [← e.1] at hx; exact absurd hx (by decide)

theorem command_p4 (c : NCmd) : NormalCmdP4 c.command := by
  have hr : ∀ a n, Range (shortRange a n) := by
    intro a n
    refine ⟨decNat a, decNat_ne_nil a, decNat_isDigit a, ?_⟩
    rw [shortRange_eq]
    rcases endOf_ok a n with h | ⟨d, h, hd⟩
    · exact .inl (by rw [h]; simp)
    · exact .inr ⟨d, hd.1, hd.2, by rw [h]⟩
  have hn : ∀ a, Range (decNat a) := fun a => ⟨decNat a, decNat_ne_nil a, decNat_isDigit a, .inl rfl⟩
  cases c with
  | insert after dst ls =>
    obtain ⟨z, d', e', h'⟩ := decNat_cons dst
    exact ⟨decNat after, 'a', z, d' ++ (endOf dst ls.length ++ ['\n']), by simp [NCmd.command, shortRange_eq, e'], hn _, .inl rfl, h'⟩
  | delete src ls after =>
    obtain ⟨z, d', e', h'⟩ := decNat_cons after
    exact ⟨shortRange src ls.length, 'd', z, d' ++ ['\n'], by simp [NCmd.command, e'], hr _ _, .inr (.inr rfl), h'⟩
  | change src r dst a =>
    obtain ⟨z, d', e', h'⟩ := decNat_cons dst
    exact ⟨shortRange src r.length, 'c', z, d' ++ (endOf dst a.length ++ ['\n']), by simp [NCmd.command, shortRange_eq, e'], hr _ _, .inr (.inl rfl), h'⟩

theorem p4_body_format (b : P4Body) (hne : b.clean ≠ []) : ∃ l ls, b.clean = l :: ls ∧ lineFormat l (formatPatterns .Perforce) = some (kindFormat b.kind) := by
  cases b with
  | unified hs =>
    cases hs with
    | nil => exact absurd rfl hne
    | cons h hs =>
      refine ⟨h.header, _, by simp only [P4Body.clean, List.flatMap_cons, UHunk.clean, List.cons_append]; rfl, ?_⟩
      have hU : reFmtUnifiedP4.atStart h.header = true := by
        rw [reFmtUnifiedP4, atStart_text]; simp [UHunk.header, str, List.isPrefixOf]
      simp [formatPatterns, lineFormat, hU, kindFormat, P4Body.kind]
  | context hs =>
    cases hs with
    | nil => exact absurd rfl hne
    | cons h hs =>
      refine ⟨h.stars, _, by simp only [P4Body.clean, List.flatMap_cons, CHunk.render, List.cons_append]; rfl, ?_⟩
      have hU : reFmtUnifiedP4.atStart h.stars = false := by
        rw [reFmtUnifiedP4, atStart_text]; simp [CHunk.stars, str, List.isPrefixOf, List.replicate]
      have hC : reFmtContextP4.atStart h.stars = true := by
        rw [reFmtContextP4, atStart_text, CHunk.stars, List.append_assoc, List.isPrefixOf_iff_prefix]; exact List.prefix_append _ _
      simp [formatPatterns, lineFormat, hU, hC, kindFormat, P4Body.kind]
  | normal cs =>
    cases cs with
    | nil => exact absurd rfl hne
    | cons c cs =>
      refine ⟨c.command, _, by simp only [P4Body.clean, List.flatMap_cons, NCmd.render, List.cons_append]; rfl, ?_⟩
      exact (shows_of_lineFormat .Perforce c.command .Normal).2 (command_p4 c)

/-- The format is recognised unless there is no change at all. -/
theorem p4_format (k : P4Kind) (fs : List P4File) (ok : ∀ f ∈ fs, f.Ok ∧ f.body.kind = k) (tr : List Str) (ht : ∀ t ∈ tr, P4Between t) :
    (determineFormat .Perforce (fs.flatMap P4File.clean ++ tr.map (· ++ ['\n'])) = kindFormat k) ∨
    ((∀ f ∈ fs, f.body.clean = []) ∧ determineFormat .Perforce (fs.flatMap P4File.clean ++ tr.map (· ++ ['\n'])) = .UnknownFormat) := by
  have hb : ∀ ts : List Str, (∀ t ∈ ts, P4Between t) → ∀ l ∈ ts.map (· ++ ['\n']), lineFormat l (formatPatterns .Perforce) = none := by
    intro ts h l hl
    obtain ⟨t, ht, rfl⟩ := List.mem_map.1 hl
    exact p4_between_none (h t ht)
  induction fs with
  | nil =>
    right
    refine ⟨by simp, ?_⟩
    have := format_skip .Perforce (tr.map (· ++ ['\n'])) [] (hb tr ht)
    rw [List.append_nil] at this
    rw [List.flatMap_nil, List.nil_append, this]; rfl
  | cons f fs ih =>
    obtain ⟨hfo, hfk⟩ := ok f (by simp)
    have e : (f :: fs).flatMap P4File.clean ++ tr.map (· ++ ['\n']) =
        (f.preamble.map (· ++ ['\n']) ++ [f.header]) ++ (f.body.clean ++ (fs.flatMap P4File.clean ++ tr.map (· ++ ['\n']))) := by
      simp [P4File.clean]
    rw [e, format_skip]
    · by_cases hc : f.body.clean = []
      · rw [hc, List.nil_append]
        rcases ih (fun f hf => ok f (by simp [hf])) with h | ⟨h1, h2⟩
        · exact .inl h
        · refine .inr ⟨?_, h2⟩
          intro g hg
          rcases List.mem_cons.1 hg with rfl | hg
          · exact hc
          · exact h1 g hg
      · left
        obtain ⟨l, ls, e2, h⟩ := p4_body_format f.body hc
        rw [e2, List.cons_append, determineFormat, h, hfk]
    · intro l hl
      rcases List.mem_append.1 hl with hl | hl
      · exact hb _ hfo.between l hl
      · rw [List.mem_singleton.1 hl]; exact p4_header_format f

theorem p4_no_lines (b : P4Body) (h : b.clean = []) : b.hunks = [] := by
  cases b with
  | unified hs => cases hs with
    | nil => rfl
    | cons k hs => simp [P4Body.clean, UHunk.clean] at h
  | context hs => cases hs with
    | nil => rfl
    | cons k hs => simp [P4Body.clean, CHunk.render] at h
  | normal cs => cases cs with
    | nil => rfl
    | cons k hs => simp [P4Body.clean, NCmd.render] at h

theorem parse_perforce (k : P4Kind) (d : P4Diff) (ok : d.Ok k) (hne : d.files ≠ []) (win : Bool) (cmp : Str → Str → Int) (heap : Heap) :
    ∃ st, parse win cmp heap d.render = Res.ok (finishParse cmp st) ∧ st.malformed = false ∧
      FilesInv st ((d.files.filter P4File.changes).map P4File.seen) := by
  have hlen : d.files.length < d.clean.length + 1 := by
    have : d.files.length ≤ (d.files.flatMap P4File.clean).length := by
      induction d.files with
      | nil => simp
      | cons f fs ih => simp only [List.flatMap_cons, List.length_append, List.length_cons, P4File.clean]; omega
    simp only [P4Diff.clean, List.length_append]; omega
  unfold parse
  rw [(P4Diff.cleans k d ok).run, P4Diff.generator k d ok hne]
  simp only [Res.bind_ok, parseLines]
  have hfmt := p4_format k d.files ok.files d.trailer ok.trailer.1
  change determineFormat .Perforce d.clean = _ ∨ _ ∧ determineFormat .Perforce d.clean = _ at hfmt
  have key : ∀ header : PState → Res (PState × Bool), (∀ st, header st = Res.ok (p4Header st st.rest)) → _ := fun header hh =>
    p4_files_ok k header hh d.files ok.files ok.later d.trailer ok.trailer.1 ok.trailer.2 (d.clean.length + 1) hlen
    { lines := d.clean, rest := d.clean, heap := heap, cur := {}, models := [], single := false, malformed := false } []
    ⟨by simp, rfl⟩ rfl
  rcases hfmt with hfmt | ⟨hall, hfmt⟩
  · rw [hfmt]
    cases k with
    | unified =>
      obtain ⟨st', h1, h2, _, h4⟩ := key (parseUnifiedDiffHeader win .Perforce) (fun st => rfl)
      refine ⟨st', ?_, h2, by simpa using h4⟩
      simp only [kindFormat, unifiedFiles]
      exact congrArg (fun r : Res PState => r.bind _) h1
    | context =>
      obtain ⟨st', h1, h2, _, h4⟩ := key (parseContextDiffHeader win .Perforce) (fun st => rfl)
      refine ⟨st', ?_, h2, by simpa using h4⟩
      simp only [kindFormat, contextFiles]
      exact congrArg (fun r : Res PState => r.bind _) h1
    | normal =>
      obtain ⟨st', h1, h2, h3, h4⟩ := key (fun st => Res.ok (parseNormalDiffHeader win .Perforce st)) (fun st => rfl)
      refine ⟨st', ?_, h2, by simpa using h4⟩
      have hn : normalFiles win .Perforce { lines := d.clean, rest := d.clean, heap := heap, cur := {}, models := [], single := false, malformed := false } = Res.ok st' := by
        unfold normalFiles
        have h1' : fileLoop (fun st => Res.ok (parseNormalDiffHeader win .Perforce st)) normalHunks (normalHeader .Perforce) (d.clean.length + 1)
          { lines := d.clean, rest := d.clean, heap := heap, cur := {}, models := [], single := false, malformed := false } = Res.ok st' := h1
        simp only [h1', Res.bind_ok, h3 rfl, Bool.false_eq_true, if_false]
      simp only [kindFormat, hn, Res.bind_ok]
  · rw [hfmt]
    refine ⟨{ lines := d.clean, rest := d.clean, heap := heap, cur := {}, models := [], single := false, malformed := false }, rfl, rfl, by simp, ?_⟩
    have : d.files.filter P4File.changes = [] := by
      apply List.filter_eq_nil_iff.2
      intro f hf
      simp [P4File.changes, p4_no_lines f.body (hall f hf), hasChange]
    simp [this]

end KompareDiff2
