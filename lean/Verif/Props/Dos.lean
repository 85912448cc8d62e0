import Verif.Proofs.DosFormat
/-
C75: diff texts that were converted to Windows line ends.
-/
namespace KompareDiff2
open Spec

theorem textFormat_iff {text : Str} {g : Generator} {f : Format} : TextFormat text g f ↔
    determineGenerator (split text) = g ∧ ∃ out, cleanUpCrap (split text) = Res.ok out ∧ determineFormat g out = f := by
  constructor
  · rintro ⟨ls, out, h1, h2, h3, h4, h5⟩
    have e := lines_iff.1 ⟨h1, h2⟩
    subst e
    exact ⟨writtenBy_iff.1 h4, out, cleaned_iff.1 h3, inFormat_iff.1 h5⟩
  · rintro ⟨rfl, out, h1, h2⟩
    have h := lines_iff.2 (rfl : split text = split text)
    exact ⟨_, out, h.1, h.2, cleaned_iff.2 h1, writtenBy_iff.2 rfl, inFormat_iff.2 h2⟩

/-- **C75.** Unified diffs: a well-formed diff whose line ends were all converted to CR LF is read without complaint.  What is shown is the
diff with a carriage return at the end of every line: at the end of the lines of the differences, of the function texts, and of the last
field of the file headers. -/
theorem C75_unified (d : UDiff) (ok : d.Ok) (hne : d.files ≠ []) (hr : d.Roomy) (win : Bool) (cmp : Str → Str → Int) (heap : Heap) :
    ∃ r, parse win cmp heap (split (crlf d.render.flatten)) = Res.ok r ∧ r.malformed = false ∧
      (match r.models with
        | none => ∀ f ∈ d.files, f.changes = false
        | some ms => ms ≠ [] ∧
            (ms.map (DModel.view r.heap)).Perm ((d.files.filter UFile.changes).map (fun f => f.dos.view (unescapePath win)))) := by
  have hch : ∀ f : UFile, f.dos.changes = f.changes := by
    intro f
    have hb : ∀ b : Block, b.dos.isChange = b.isChange := by intro b; cases b <;> rfl
    simp [UFile.changes, UFile.dos, UHunk.dos, List.any_map, Function.comp_def, hb]
  obtain ⟨r, h1, h2, h3⟩ := C26_unified d.dos (UDiff.dos_ok ok hr) (by simpa [UDiff.dos] using hne) win cmp heap
  refine ⟨r, by rw [parse_dos d ok hr]; exact h1, h2, ?_⟩
  cases hm : r.models with
  | none =>
    rw [hm] at h3
    intro f hf
    rw [← hch]
    exact h3 f.dos (List.mem_map.2 ⟨f, hf, rfl⟩)
  | some ms =>
    rw [hm] at h3
    refine ⟨h3.1, ?_⟩
    have e : (d.dos.files.filter UFile.changes).map (UFile.view (unescapePath win)) =
        (d.files.filter UFile.changes).map (fun f => f.dos.view (unescapePath win)) := by
      simp only [UDiff.dos, List.filter_map, List.map_map, Function.comp_def, hch]
    rw [← e]
    exact h3.2

/-- **C75.** The line ends do not matter for the recognition: every text, converted or not, is taken for the same format of the same
program. -/
theorem C75_format (s : Str) (g : Generator) (f : Format) : TextFormat (crlf s) g f ↔ TextFormat s g f := by
  rw [textFormat_iff, textFormat_iff]
  obtain ⟨hg, h⟩ := converted_text s
  rw [hg]
  rcases h with ⟨h1, h2⟩ | ⟨out, out', h1, h2, _, h4⟩
  · rw [h1, h2]
  · rw [h1, h2]
    simp only [Res.ok.injEq, exists_eq_left', h4]

/-- What is read of a converted text. -/
theorem dos_read {s : Str} {g : Generator} {f : Format} (hs : TextFormat s g f) {win : Bool} {cmp : Str → Str → Int} {heap : Heap} {r : ParseResult}
    (h : parse win cmp heap (split (crlf s)) = Res.ok r) :
    ∃ out, (∀ b ∈ out, ∀ t, b = t ++ ['\n'] → ∃ u, t = cr u) ∧ determineFormat g out = f ∧ parseLines win cmp g heap out = Res.ok r := by
  obtain ⟨hg, out0, h1, h2⟩ := textFormat_iff.1 hs
  obtain ⟨hg', k⟩ := converted_text s
  rcases k with ⟨k1, _⟩ | ⟨out, out', k1, k2, k3, k4⟩
  · rw [k1] at h1; cases h1
  · rw [h1] at k1
    simp only [Res.ok.injEq] at k1
    subst k1
    unfold parse at h
    rw [k2, hg', hg] at h
    exact ⟨out', k3.dos, by rw [k4, h2], h⟩

theorem cr_ne_dash {t u : Str} {c : Char} (hc : c ≠ '\r') (h : t ++ [c] = cr u) : False := by
  have := congrArg List.getLast? h
  simp [cr] at this
  exact hc this

theorem filesStand_none {o : FileForm} {T : HView → List Str → Prop} {ms : List MView} {ls : List Str} (h : FilesStand o T ms ls)
    (hh : ∀ hdr f, o.header hdr f → ¬ hdr <:+: ls) : ms = [] := by
  cases h with
  | nil => rfl
  | cons gap hdr ls rest f hs ms h1 h2 h3 => exact absurd ⟨gap, ls, by simp⟩ (hh hdr f h1)

theorem showsFiles_none {o : FileForm} {H : List Str → List HView → List Str → Prop} {ms : List MView} {ls : List Str} (h : ShowsFiles o H ls ms)
    (hh : ∀ hdr f, o.header hdr f → ¬ hdr <:+: ls) : ms = [] := by
  cases h with
  | finished => rfl
  | abandoned => rfl
  | file pre hdr ls rest f hs ms h0 h1 h2 h3 => exact absurd ⟨pre, ls, by simp⟩ (hh hdr f h1)

/-- **C75 (defect).** Perforce: of a text whose line ends were converted nothing is shown, whatever the format: the file headers are not
recognised, for ` ====` has to be followed by a plain newline. -/
theorem C75_perforce_defect {s : Str} {f : Format} (hs : TextFormat s .Perforce f) {win : Bool} {cmp : Str → Str → Int} {heap : Heap} {r : ParseResult}
    (h : parse win cmp heap (split (crlf s)) = Res.ok r) : r.models = none := by
  obtain ⟨out, hd, hf, hp⟩ := dos_read hs h
  have key : ∀ hdr fn, perforceForm.header hdr fn → ¬ hdr <:+: out := by
    rintro hdr fn ⟨l, a, b, rfl, ⟨e, _⟩, _⟩ hin
    have hl : l ∈ out := hin.subset (by simp)
    obtain ⟨u, hu⟩ := hd l hl (str "==== " ++ a ++ str " - " ++ b ++ str " ===" ++ ['=']) (by rw [e]; simp [str])
    exact cr_ne_dash (by decide) hu
  cases f with
  | Unified =>
    obtain ⟨ms, h1, _, h2⟩ := C70_unified_shown win cmp _ heap out r hf hp
    exact h2.2 (showsFiles_none h1 key)
  | Context =>
    obtain ⟨ms, h1, _, h2⟩ := C71_context_shown win cmp _ heap out r hf hp
    exact h2.2 (showsFiles_none h1 key)
  | Normal =>
    obtain ⟨ms, ⟨fs, h1, ⟨_, rfl⟩ | ⟨hg, _⟩⟩, _, h2⟩ := C72_normal_shown win cmp _ heap out r hf hp
    · exact h2.2 (showsFiles_none h1 key)
    · exact absurd rfl hg
  | Ed => unfold parseLines at hp; simp only [hf, Res.ok.injEq] at hp; rw [← hp]
  | RCS => unfold parseLines at hp; simp only [hf, Res.ok.injEq] at hp; rw [← hp]
  | UnknownFormat => unfold parseLines at hp; simp only [hf, Res.ok.injEq] at hp; rw [← hp]

theorem contextShown_none {ls rest : List Str} {hs : List HView} (h : ContextShown ls hs rest) (hd : ∀ b ∈ ls, ∀ t, b = t ++ ['\n'] → ∃ u, t = cr u) :
    hs = [] ∧ ∀ b ∈ rest, b ∈ ls := by
  induction h with
  | stop ls _ => exact ⟨rfl, fun _ h => h⟩
  | lone l ls _ _ => exact ⟨rfl, fun _ h => List.mem_cons_of_mem _ h⟩
  | dropped l l2 l3 old more hs rest _ _ _ _ _ _ ih =>
    obtain ⟨h1, h2⟩ := ih (fun b hb => hd b (by simp only [List.cons_append, List.mem_cons, List.mem_append] at hb ⊢; exact .inr (.inr (.inr hb))))
    exact ⟨h1, fun b hb => by have := h2 b hb; simp only [List.cons_append, List.mem_cons, List.mem_append] at this ⊢; exact .inr (.inr (.inr this))⟩
  | hunk l l2 l3 old new after h hs rest _ _ _ _ h5 _ _ _ _ _ _ =>
    obtain ⟨a, b, e, _⟩ := h5
    obtain ⟨u, hu⟩ := hd l3 (by simp) (str "--- " ++ a ++ ',' :: b ++ str " ---" ++ ['-']) (by rw [e]; simp [str])
    exact absurd hu (fun hu => cr_ne_dash (by decide) hu)

theorem showsFiles_noHunks {o : FileForm} {H : List Str → List HView → List Str → Prop} {ms : List MView} {ls : List Str} {P : Str → Prop}
    (h : ShowsFiles o H ls ms) (hP : ∀ b ∈ ls, P b) (hH : ∀ ls hs rest, H ls hs rest → (∀ b ∈ ls, P b) → hs = [] ∧ ∀ b ∈ rest, b ∈ ls) : ms = [] := by
  induction h with
  | finished => rfl
  | abandoned => rfl
  | file pre hdr ls rest f hs ms _ _ h2 _ ih =>
    obtain ⟨rfl, h4⟩ := hH _ _ _ h2 (fun b hb => hP b (by simp [hb]))
    rw [ih (fun b hb => hP b (by simp [h4 b hb]))]
    simp [FileNames.shown, changesOf]

/-- **C75 (defect).** Context format: of a text whose line ends were converted nothing is shown, because ` ----` before the new lines of a
hunk has to be followed by a plain newline. -/
theorem C75_context_defect {s : Str} {g : Generator} (hs : TextFormat s g .Context) {win : Bool} {cmp : Str → Str → Int} {heap : Heap} {r : ParseResult}
    (h : parse win cmp heap (split (crlf s)) = Res.ok r) : r.models = none := by
  obtain ⟨out, hd, hf, hp⟩ := dos_read hs h
  obtain ⟨ms, h1, _, h2⟩ := C71_context_shown win cmp _ heap out r hf hp
  exact h2.2 (showsFiles_noHunks (P := fun b => ∀ t, b = t ++ ['\n'] → ∃ u, t = cr u) h1 hd (fun ls hs rest k1 k2 => contextShown_none k1 k2))

/-- Change commands without the new lines. -/
def NoNewLines (k : HView) : Prop := ∀ v ∈ k.diffs, v.type = .Change → v.dst = []

theorem normalShown_undivided {ls rest : List Str} {hs : List HView} (h : NormalShown ls hs rest)
    (hd : ∀ b ∈ ls, ∀ t, b = t ++ ['\n'] → ∃ u, t = cr u) : (∀ k ∈ hs, NoNewLines k) ∧ ∀ b ∈ rest, b ∈ ls := by
  induction h with
  | stop ls _ => exact ⟨by simp, fun _ h => h⟩
  | hunk l ls after h v hs rest _ h2 _ h4 _ _ ih =>
    have ha : (v.type = .Change → v.dst = []) ∧ ∀ b ∈ after, b ∈ ls := by
      cases h2 with
      | insert _ e _ hr => exact ⟨(fun e' => by rw [e] at e'; cases e'), fun b hb => by rw [hr.1]; simp [hb]⟩
      | delete _ e hr _ => exact ⟨(fun e' => by rw [e] at e'; cases e'), fun b hb => by rw [hr.1]; simp [hb]⟩
      | change _ _ _ hr _ =>
        exfalso
        obtain ⟨u, hu⟩ := hd (str "---\n") (by rw [hr.1]; simp) (str "--" ++ ['-']) (by decide)
        exact cr_ne_dash (by decide) hu
      | undivided _ _ hr hn _ => exact ⟨fun _ => hn, fun b hb => by rw [hr.1]; simp [hb]⟩
    obtain ⟨k1, k2⟩ := ih (fun b hb => hd b (List.mem_cons_of_mem _ (ha.2 b hb)))
    refine ⟨?_, fun b hb => List.mem_cons_of_mem _ (ha.2 b (k2 b hb))⟩
    intro k hk
    rcases List.mem_cons.1 hk with rfl | hk
    · intro w hw
      rw [h4, List.mem_singleton] at hw
      subst hw
      exact ha.1
    · exact k1 k hk

theorem showsFiles_hunks {o : FileForm} {H : List Str → List HView → List Str → Prop} {ms : List MView} {ls : List Str} {P : Str → Prop}
    {Q : HView → Prop} (h : ShowsFiles o H ls ms) (hP : ∀ b ∈ ls, P b)
    (hH : ∀ ls hs rest, H ls hs rest → (∀ b ∈ ls, P b) → (∀ k ∈ hs, Q k) ∧ ∀ b ∈ rest, b ∈ ls) : ∀ m ∈ ms, ∀ k ∈ m.hunks, Q k := by
  induction h with
  | finished => simp
  | abandoned => simp
  | file pre hdr ls rest f hs ms _ _ h2 _ ih =>
    obtain ⟨h3, h4⟩ := hH _ _ _ h2 (fun b hb => hP b (by simp [hb]))
    have h5 := ih (fun b hb => hP b (by simp [h4 b hb]))
    intro m hm
    rcases List.mem_append.1 hm with hm | hm
    · unfold FileNames.shown at hm
      split at hm
      · simp at hm
      · rw [List.mem_singleton] at hm
        subst hm
        exact h3
    · exact h5 m hm

/-- **C75 (defect).** Normal format: of a text whose line ends were converted, commands that change lines are shown without their new
lines, because the divider has to be `---` with a plain newline; and all lines that are shown end with a carriage return. -/
theorem C75_normal_defect {s : Str} {g : Generator} (hs : TextFormat s g .Normal) {win : Bool} {cmp : Str → Str → Int} {heap : Heap} {r : ParseResult}
    (h : parse win cmp heap (split (crlf s)) = Res.ok r) : ∀ m ∈ r.shown, ∀ k ∈ m.hunks, ∀ v ∈ k.diffs,
      (v.type = .Change → v.dst = []) ∧ ∀ x ∈ v.src ++ v.dst, ∃ u, x = cr u := by
  obtain ⟨out, hd, hf, hp⟩ := dos_read hs h
  have marked : ∀ (c : Char) (x : Str), markedLine c x ∈ out → ∃ u, x = cr u := by
    intro c x hx
    obtain ⟨u, hu⟩ := hd _ hx (c :: ' ' :: x) (by simp [markedLine])
    by_cases hx0 : x = []
    · subst hx0
      exact absurd hu (fun hu => cr_ne_dash (t := [c]) (c := ' ') (by decide) hu)
    · obtain ⟨y, z, rfl⟩ : ∃ y z, x = y ++ [z] := ⟨x.dropLast, x.getLast hx0, (List.dropLast_concat_getLast hx0).symm⟩
      have hz : z = '\r' := Classical.not_not.1 (fun hz => cr_ne_dash (t := c :: ' ' :: y) hz hu)
      exact ⟨y, by rw [hz]; rfl⟩
  intro m hm k hk v hv
  constructor
  · obtain ⟨ms, ⟨fs, h1, h2⟩, h3, _⟩ := C72_normal_shown win cmp _ heap out r hf hp
    have hm' := h3.mem_iff.1 hm
    have q := showsFiles_hunks (P := fun b => ∀ t, b = t ++ ['\n'] → ∃ u, t = cr u) (Q := NoNewLines) h1 hd
      (fun ls hs rest k1 k2 => normalShown_undivided k1 k2)
    rcases h2 with ⟨_, rfl⟩ | ⟨_, hs, rest, k1, rfl⟩
    · exact q m hm' k hk v hv
    · rcases List.mem_append.1 hm' with hm' | hm'
      · exact q m hm' k hk v hv
      · unfold FileNames.shown at hm'
        split at hm'
        · simp at hm'
        · rw [List.mem_singleton] at hm'
          subst hm'
          exact (normalShown_undivided k1 hd).1 k hk v hv
  · obtain ⟨k1, k2⟩ := C72_normal_lines win cmp g heap out r hf hp m hm k hk v hv
    intro x hx
    rcases List.mem_append.1 hx with hx | hx
    · exact marked '<' x (k1 x hx)
    · exact marked '>' x (k2 x hx)

/-- **C75 (defect).** So such a context diff, or Perforce diff, cannot be opened, from any state. -/
theorem C75_open_defect {e : Env} {st st' : MLState} {s : Str} {b : Bool} {g : Generator} {f : Format} (hr : Reachable st) (hs : TextFormat s g f)
    (hgf : g = .Perforce ∨ f = .Context) (h : st.parseAndOpenDiff e (crlf s) = Res.ok (st', b)) : b = false ∧ st'.models = none := by
  have hp : ∃ p, parse e.win e.cmp (st.clear.emit (.status .Parsing)).heap (split (crlf s)) = Res.ok p := by
    unfold MLState.parseAndOpenDiff at h
    obtain ⟨⟨t, ok⟩, h1, _⟩ := Res.bind_eq_ok.1 h
    obtain ⟨_, _, _, p, hp, _⟩ := parseDiffOutput_heads (hr.wf.keep ((keep_clear st).trans (keep_emit _ _))) h1
    exact ⟨p, hp⟩
  obtain ⟨p, hp⟩ := hp
  have hn : p.models = none := by
    rcases hgf with rfl | rfl
    · exact C75_perforce_defect hs hp
    · exact C75_context_defect hs hp
  obtain ⟨ms, h1, _, h2⟩ := C73_parse hp
  obtain ⟨k1, k2, _⟩ := C73_open hr h1 h
  have hb : b = false := by
    cases b with
    | false => rfl
    | true => exact absurd (h2.1 hn) (k1.1 rfl)
  exact ⟨hb, k2 hb⟩

/-! ### The hypotheses are met -/

example : exampleDiff.Roomy := by
  unfold UDiff.Roomy; decide +kernel

/-- The converted example: the time stamp and the destination name of the first file end with a carriage return. -/
example (cmp : Str → Str → Int) (heap : Heap) : ∃ r ms m k, parse false cmp heap (split (crlf exampleDiff.render.flatten)) = Res.ok r ∧ r.models = some ms ∧ m ∈ ms ∧
    m.view r.heap = exampleDiff.files[0].dos.view (unescapePath false) ∧ (m.view r.heap).destination = str "b.txt\r" ∧
      k ∈ (m.view r.heap).hunks ∧ (k.diffs.map DView.dst) = [[str "x\r\n"], [str "new\r"]] := by
  obtain ⟨r, h1, _, h2⟩ := C75_unified exampleDiff exampleDiff_ok (by decide) (by unfold UDiff.Roomy; decide +kernel) false cmp heap
  cases hm : r.models with
  | none =>
    rw [hm] at h2
    exact absurd (h2 exampleDiff.files[0] (by simp)) (by decide +kernel)
  | some ms =>
    rw [hm] at h2
    have : exampleDiff.files[0].dos.view (unescapePath false) ∈ ms.map (DModel.view r.heap) :=
      h2.2.mem_iff.2 (List.mem_map.2 ⟨exampleDiff.files[0], List.mem_filter.2 ⟨by simp, by decide +kernel⟩, rfl⟩)
    obtain ⟨m, hm', hv⟩ := List.mem_map.1 this
    refine ⟨r, ms, m, exampleDiff.files[0].dos.hunks[0].view, h1, hm, hm', hv, by rw [hv]; decide +kernel, by rw [hv]; decide +kernel, by decide +kernel⟩

/-- A context diff that is read as it should if it is not converted, and not at all if it is. -/
def dosContext : Str := str "*** a\n--- b\n***************\n*** 1,3 ****\n  p\n- x\n  y\n--- 1,2 ----\n"

theorem textFormat_of {text : Str} {g : Generator} {f : Format} (h : determineGenerator (split text) = g ∧
    (match cleanUpCrap (split text) with | .ok out => decide (determineFormat g out = f) | _ => false) = true) : TextFormat text g f := by
  rw [textFormat_iff]
  refine ⟨h.1, ?_⟩
  cases hc : cleanUpCrap (split text) with
  | ok out => rw [hc] at h; exact ⟨out, rfl, by simpa using h.2⟩
  | ub => rw [hc] at h; simp at h
  | hang => rw [hc] at h; simp at h

example : TextFormat dosContext .Diff .Context := textFormat_of (by decide +kernel)
example : (match parse false (fun _ _ => 0) ⟨fun _ => Diff.new 0 0, 0⟩ (split dosContext) with | .ok r => r.models.isSome | _ => false) = true := by
  decide +kernel
example : ∃ r, parse false (fun _ _ => 0) ⟨fun _ => Diff.new 0 0, 0⟩ (split (crlf dosContext)) = Res.ok r ∧ r.models = none := by
  have h : (match parse false (fun _ _ => 0) ⟨fun _ => Diff.new 0 0, 0⟩ (split (crlf dosContext)) with | .ok _ => true | _ => false) = true := by
    decide +kernel
  cases hp : parse false (fun _ _ => 0) ⟨fun _ => Diff.new 0 0, 0⟩ (split (crlf dosContext)) with
  | ok r => exact ⟨r, rfl, C75_context_defect (g := .Diff) (textFormat_of (by decide +kernel)) hp⟩
  | ub => rw [hp] at h; simp at h
  | hang => rw [hp] at h; simp at h

/-- A normal diff: unconverted it is a change of one line, converted the new line is lost. -/
def dosNormal : Str := str "2c2\n< x\n---\n> y\n"

example : TextFormat dosNormal .Diff .Normal := textFormat_of (by decide +kernel)
example : (match parse false (fun _ _ => 0) ⟨fun _ => Diff.new 0 0, 0⟩ (split (crlf dosNormal)) with
    | .ok r => r.malformed && decide (r.shown.map (fun m => m.differences.map (fun d => (d.type, d.src, d.dst))) = [[(.Change, [str "x\r"], [])]])
    | _ => false) = true := by decide +kernel

/-- A Perforce diff. -/
def dosPerforce : Str := str "==== //depot/a#1 - //depot/a#2 ====\n@@ -1,1 +1,1 @@\n-x\n+y\n"

example : TextFormat dosPerforce .Perforce .Unified := textFormat_of (by decide +kernel)
example : (match parse false (fun _ _ => 0) ⟨fun _ => Diff.new 0 0, 0⟩ (split dosPerforce) with | .ok r => r.models.isSome | _ => false) = true := by
  decide +kernel
example : (match parse false (fun _ _ => 0) ⟨fun _ => Diff.new 0 0, 0⟩ (split (crlf dosPerforce)) with | .ok r => r.models.isNone | _ => false) = true := by
  decide +kernel

end KompareDiff2
