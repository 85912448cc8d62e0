import Verif.Proofs.Encoding
import Verif.Props.EndToEnd
import Verif.Props.Compare
/-
Property theorems C55: which bytes are read as which text, and which bytes are written.
-/
namespace KompareDiff2
open Spec

theorem text_nil (c : Codec) : Spec.Codec.text c [] = [] := rfl

theorem runText_snoc (q : Codecs) (ops : List TextOp) (op : TextOp) : runText q (ops ++ [op]) = op.run q (runText q ops) := by
  unfold runText; rw [List.foldl_append]; rfl

theorem chosen_snoc (ops : List TextOp) (op : TextOp) :
    chosen (ops ++ [op]) = match op with | .setEncoding n => some n | .readFile _ => chosen ops := by
  unfold chosen; rw [List.foldl_append]; rfl

theorem isDefaultName_iff (n : Str) : isDefaultName n = true ↔ n.map Char.toLower = str "default" := by
  unfold isDefaultName; exact beq_iff_eq

theorem meant_eq (q : Codecs) (n : Str) : (TextState.setEncoding q n t).decoder = some (meant q n).decoder ∧ (TextState.setEncoding q n t).encoding = n := by
  unfold TextState.setEncoding meant
  by_cases h : isDefaultName n = true
  · rw [if_pos h, if_pos ((isDefaultName_iff n).1 h)]; exact ⟨rfl, rfl⟩
  · rw [if_neg h, if_neg (fun x => h ((isDefaultName_iff n).2 x))]
    cases q.named n <;> exact ⟨rfl, rfl⟩

/-- What is known about the decoder after a history: which codec it is for. -/
theorem runText_inv (q : Codecs) (ops : List TextOp) :
    ((runText q ops).decoder = none ∧ chosen ops = none ∨ ∃ d, (runText q ops).decoder = some d ∧ d.codec = selected q ops) ∧
      (runText q ops).encoding = (chosen ops).getD [] := by
  have key : ∀ l : List TextOp, ((runText q l.reverse).decoder = none ∧ chosen l.reverse = none ∨
      ∃ d, (runText q l.reverse).decoder = some d ∧ d.codec = selected q l.reverse) ∧ (runText q l.reverse).encoding = (chosen l.reverse).getD [] := by
    intro l
    induction l with
    | nil => exact ⟨.inl ⟨rfl, rfl⟩, rfl⟩
    | cons op l ih =>
      rw [List.reverse_cons, runText_snoc]
      unfold selected
      rw [chosen_snoc]
      cases op with
      | setEncoding n =>
        obtain ⟨h1, h2⟩ := meant_eq (t := runText q l.reverse) q n
        exact ⟨.inr ⟨_, h1, rfl⟩, h2⟩
      | readFile b =>
        dsimp only [TextOp.run, TextState.readFile]
        refine ⟨.inr ⟨_, rfl, ?_⟩, ih.2⟩
        rw [readLoop_eq]
        dsimp only [Decoder.reset]
        rcases ih.1 with ⟨h1, h2⟩ | ⟨d, h1, h2⟩
        · rw [h1, h2]; rfl
        · rw [h1]; exact h2
  have := key ops.reverse
  rwa [List.reverse_reverse] at this

/-- **C55.** Whatever encodings were chosen and files were read before, the contents of a file are its bytes, decoded from the beginning
to the end with the encoding chosen last: neither the pieces in which the file is read nor earlier files matter. -/
theorem C55_read (q : Codecs) (ops : List TextOp) (bytes : List UInt8) :
    ((runText q ops).readFile q bytes).2 = Spec.Codec.text (selected q ops) bytes := by
  dsimp only [TextState.readFile]
  rw [readLoop_eq]
  dsimp only [Decoder.reset]
  rw [List.nil_append]
  rcases (runText_inv q ops).1 with ⟨h1, h2⟩ | ⟨d, h1, h2⟩
  · rw [h1]
    have : selected q ops = q.system := by unfold selected; rw [h2]
    rw [this]; rfl
  · rw [h1, ← h2]; rfl

/-- **C55.** The output of the diff program is decoded like the files, also after several chunks and after its error text: as soon as an
encoding was chosen (or the empty name is not the name of an encoding), the process uses the codec of the list. -/
theorem C55_process (q : Codecs) (ops : List TextOp) (h : chosen ops ≠ none ∨ q.named [] = none) (r : RawResult) :
    (r.decoded (processCodec q (runText q ops))).stdout = Spec.Codec.text (selected q ops) r.stdout ∧
      (r.decoded (processCodec q (runText q ops))).stderr = Spec.Codec.text (selected q ops) r.stderr := by
  have e : processCodec q (runText q ops) = selected q ops := by
    unfold processCodec selected
    rw [(runText_inv q ops).2]
    cases hc : chosen ops with
    | some n =>
      unfold meant
      dsimp only [Option.getD]
      by_cases h : isDefaultName n = true
      · rw [if_pos h, if_pos ((isDefaultName_iff n).1 h)]
      · rw [if_neg h, if_neg (fun x => h ((isDefaultName_iff n).2 x))]
        cases q.named n <;> rfl
    | none =>
      rcases h with h | h
      · exact absurd hc h
      · dsimp only [Option.getD]
        rw [h, if_neg (by decide)]
  rw [e]
  exact ⟨rfl, rfl⟩

/-- **C55.** UTF-8: what is written is read back as the same text, and different texts are written as different bytes. -/
theorem C55_utf8 (s : Str) (h : NoBom s) : Spec.Codec.text utf8 (streamBytes s) = s ∧ ∀ t, streamBytes t = streamBytes s → t = s :=
  ⟨utf8_text h, fun _ ht => utf8_injective ht⟩

/-- **C55.** A UTF-8 file without a byte order mark that is read and written unchanged keeps its bytes. -/
theorem C55_utf8_file (s : Str) (h : NoBom s) : streamBytes (Spec.Codec.text utf8 (utf8Encode s)) = utf8Encode s := by
  rw [utf8_text h]; rfl

/-- **C55.** With UTF-8, the diff program gets a text to be compared (instead of a file) as the bytes of this text. -/
theorem C55_stdin (s : Str) (h : NoBom s) : Spec.Codec.text utf8 (stdinBytes utf8 (some s)) = s := utf8_text h

/-- **C55, defect.** The byte order mark of a UTF-8 file is lost when it is written. -/
theorem C55_bom_defect (s : Str) : streamBytes (Spec.Codec.text utf8 (bom ++ utf8Encode s)) ≠ bom ++ utf8Encode s := by
  rw [utf8_bom]
  intro h
  have := congrArg List.length h
  rw [List.length_append] at this
  have hb : bom.length = 3 := rfl
  unfold streamBytes at this
  omega

theorem utf8Char_byte (b : UInt8) : (b.toNat < 128 → utf8Char (Char.ofNat b.toNat) = [b]) ∧ (128 ≤ b.toNat → (utf8Char (Char.ofNat b.toNat)).length = 2) := by
  have hb : b.toNat < 256 := b.toNat_lt
  have hn : (Char.ofNat b.toNat).toNat = b.toNat := by
    have : Nat.isValidChar b.toNat := .inl (by omega)
    simp only [Char.ofNat, dif_pos this]
    rfl
  unfold utf8Char
  dsimp only
  rw [hn]
  constructor
  · intro h
    rw [if_pos (by omega), UInt8.ofNat_toNat]
  · intro h
    rw [if_neg (by omega), if_pos (by omega)]; rfl

theorem latin1_length (bs : List UInt8) : bs.length ≤ (utf8Encode (bs.map fun b => Char.ofNat b.toNat)).length ∧
    (∀ b ∈ bs, 128 ≤ b.toNat → bs.length < (utf8Encode (bs.map fun b => Char.ofNat b.toNat)).length) := by
  induction bs with
  | nil => exact ⟨Nat.le_refl _, fun _ h => absurd h (by simp)⟩
  | cons b bs ih =>
    have e : (utf8Encode ((b :: bs).map fun b => Char.ofNat b.toNat)).length =
        (utf8Char (Char.ofNat b.toNat)).length + (utf8Encode (bs.map fun b => Char.ofNat b.toNat)).length := by
      unfold utf8Encode; rw [List.map_cons, List.flatMap_cons, List.length_append]
    rw [e, List.length_cons]
    obtain ⟨h1, h2⟩ := utf8Char_byte b
    have h3 : 1 ≤ (utf8Char (Char.ofNat b.toNat)).length := by
      by_cases h : b.toNat < 128
      · rw [h1 h]; exact Nat.le_refl _
      · rw [h2 (by omega)]; omega
    refine ⟨by omega, fun c hc h => ?_⟩
    rcases List.mem_cons.1 hc with rfl | hc
    · rw [h2 h]; omega
    · have := ih.2 c hc h; omega

/-- **C55, defect.** The chosen encoding is not used for writing: a Latin-1 file that is read and written unchanged keeps its bytes only if
it is pure ASCII. -/
theorem C55_latin1_defect (bs : List UInt8) : streamBytes (Spec.Codec.text latin1 bs) = bs ↔ ∀ b ∈ bs, b.toNat < 128 := by
  have e : Spec.Codec.text latin1 bs = bs.map (fun b => Char.ofNat b.toNat) := latin1_decode () bs
  rw [e]
  unfold streamBytes
  constructor
  · intro h b hb
    apply Classical.byContradiction
    intro hc
    have := (latin1_length bs).2 b hb (by omega)
    rw [h] at this
    omega
  · intro h
    clear e
    induction bs with
    | nil => rfl
    | cons b bs ih =>
      show utf8Char (Char.ofNat b.toNat) ++ utf8Encode (bs.map fun b => Char.ofNat b.toNat) = _
      rw [(utf8Char_byte b).1 (h b (List.mem_cons_self ..)), ih (fun c hc => h c (List.mem_cons_of_mem _ hc))]
      rfl

theorem original_decoded (e : Env) (q : Codecs) (ops : List TextOp) (bytes : Str → List UInt8) (url src : Str) :
    original (e.decoded q (runText q ops) bytes) url src = Spec.Codec.text (selected q ops) (originalBytes e bytes url src) := by
  have hc : ∀ f, (e.decoded q (runText q ops) bytes).contents f = Spec.Codec.text (selected q ops) (bytes f) := fun f => C55_read q ops (bytes f)
  unfold original originalBytes
  rw [hc]
  dsimp only
  rw [hc]
  have hf : (e.decoded q (runText q ops) bytes).filePath = e.filePath := rfl
  rw [hf]
  generalize (if List.isPrefixOf url src = true then src else e.filePath url src) = path
  show (if e.isDir url = true then if e.exists_ path = true then _ else _ else _) = _
  split
  · split
    · rfl
    · rfl
  · rfl

/-- **C55.** Comparing, in bytes: the files and the output of the diff program are sequences of bytes, decoded with the encoding that was
chosen.  When everything is marked as applied, saving writes the text of the original, encoded as UTF-8, and when nothing is marked, the
target text, encoded as UTF-8. -/
theorem C55_compare {e : Env} {s : MLState} {i : Info} (q : Codecs) (text : List TextOp) (bytes : Str → List UInt8) (r : RawResult)
    (henc : chosen text ≠ none ∨ q.named [] = none) (hs : Reachable s) (hi : s.info = some i)
    (hmode : i.mode ≠ .ShowingDiff) (hr : r.exitStatus = .NormalExit ∧ r.exitCode ≠ 0) (D : UDiff)
    (hout : Spec.Codec.text (selected q text) r.stdout = D.render.flatten) (ok : D.Ok) (hc : ∃ f ∈ D.files, f.changes = true)
    (hu : e.isDir i.localSource = true ∨
      (e.isDir i.localSource = false ∧ e.isFile i.localSource = true ∧ (D.files.filter UFile.changes).length = 1))
    (T : UFile → List Str)
    (hp : ∀ f ∈ D.files, f.changes = true → Patches 0 (f.hunks.map UHunk.edit)
      (split (Spec.Codec.text (selected q text) (originalBytes e bytes i.localSource (unescapePath e.win f.src.name)))) (T f)) :
    ∃ (s1 : MLState) (ms : List Nat) (fs : List UFile),
      s.slotDiffProcessFinished (e.decoded q (runText q text) bytes) (r.decoded (processCodec q (runText q text))) = Res.ok s1 ∧
      s1.models = some ms ∧ fs.Perm (D.files.filter UFile.changes) ∧ ms.length = fs.length ∧
      ∀ (k : Nat) (m : Nat) (f : UFile), ms[k]? = some m → fs[k]? = some f →
        SavesBytes s1 m (utf8Encode (Spec.Codec.text (selected q text) (originalBytes e bytes i.localSource (unescapePath e.win f.src.name))))
          (utf8Encode (T f).flatten) := by
  obtain ⟨s1, ms, fs, h1, h2, h3, h4, h5⟩ := C48_compare (e := e.decoded q (runText q text) bytes)
    (r := r.decoded (processCodec q (runText q text))) hs hi hmode
    ((C46_success _).2 hr) D
    ((C55_process q text henc r).1.trans hout) ok hc hu T
    (fun f hf hch => by rw [original_decoded]; exact hp f hf hch)
  refine ⟨s1, ms, fs, h1, h2, h3, h4, fun k m f hk hf ops hops => ?_⟩
  obtain ⟨g1, _, g3⟩ := h5 k m f hk hf
  obtain ⟨s', r1, _, r2, r3⟩ := g3 ops hops
  refine ⟨s', r1, fun h => ⟨_, r2 h, rfl⟩, fun h => ⟨_, r3 h, ?_⟩⟩
  rw [g1, original_decoded]
  rfl

/-- **C55.** With UTF-8 and originals without byte order mark, saving with everything marked as applied gives the bytes of the original. -/
theorem C55_compare_utf8 {e : Env} {s : MLState} {i : Info} (q : Codecs) (text : List TextOp) (bytes : Str → List UInt8) (r : RawResult)
    (henc : chosen text ≠ none ∨ q.named [] = none) (hsel : selected q text = utf8) (hs : Reachable s) (hi : s.info = some i)
    (hmode : i.mode ≠ .ShowingDiff) (hr : r.exitStatus = .NormalExit ∧ r.exitCode ≠ 0) (D : UDiff)
    (hout : r.stdout = utf8Encode D.render.flatten) (hbom : NoBom D.render.flatten) (ok : D.Ok) (hc : ∃ f ∈ D.files, f.changes = true)
    (hu : e.isDir i.localSource = true ∨
      (e.isDir i.localSource = false ∧ e.isFile i.localSource = true ∧ (D.files.filter UFile.changes).length = 1))
    (S : UFile → Str) (T : UFile → List Str)
    (hp : ∀ f ∈ D.files, f.changes = true → originalBytes e bytes i.localSource (unescapePath e.win f.src.name) = utf8Encode (S f) ∧ NoBom (S f) ∧
      Patches 0 (f.hunks.map UHunk.edit) (split (S f)) (T f)) :
    ∃ (s1 : MLState) (ms : List Nat) (fs : List UFile),
      s.slotDiffProcessFinished (e.decoded q (runText q text) bytes) (r.decoded (processCodec q (runText q text))) = Res.ok s1 ∧
      s1.models = some ms ∧ fs.Perm (D.files.filter UFile.changes) ∧ ms.length = fs.length ∧
      ∀ (k : Nat) (m : Nat) (f : UFile), ms[k]? = some m → fs[k]? = some f →
        SavesBytes s1 m (originalBytes e bytes i.localSource (unescapePath e.win f.src.name)) (utf8Encode (T f).flatten) := by
  obtain ⟨s1, ms, fs, h1, h2, h3, h4, h5⟩ := C55_compare (e := e) q text bytes r henc hs hi hmode hr D
    (by rw [hsel, hout, utf8_text hbom]) ok hc hu T
    (fun f hf hch => by
      obtain ⟨a, b, c⟩ := hp f hf hch
      rw [hsel, a, utf8_text b]; exact c)
  refine ⟨s1, ms, fs, h1, h2, h3, h4, fun k m f hk hf => ?_⟩
  have := h5 k m f hk hf
  obtain ⟨hmem, hch⟩ := List.mem_filter.1 (h3.mem_iff.1 (List.mem_of_getElem? hf))
  obtain ⟨a, b, c⟩ := hp f hmem hch
  rw [hsel, a, utf8_text b] at this
  rw [a]; exact this

/-- **C55.** The saved diff: the target gets the text of the output of the diff program, encoded as UTF-8; with UTF-8 (and no byte order
mark at the beginning) these are the bytes of the program. -/
theorem C55_saved_diff (q : Codecs) (text : List TextOp) (henc : chosen text ≠ none ∨ q.named [] = none) {s s' : MLState} {r : RawResult}
    {c : Bool} (h : s.slotWriteDiffOutput c (r.decoded (processCodec q (runText q text))) = Res.ok s') :
    (∀ target out, Event.upload target out ∈ s'.log.drop s.log.length → streamBytes out = utf8Encode (Spec.Codec.text (selected q text) r.stdout)) ∧
      (selected q text = utf8 → ∀ d, NoBom d → r.stdout = utf8Encode d → ∀ target out, Event.upload target out ∈ s'.log.drop s.log.length →
        streamBytes out = r.stdout) := by
  have key : ∀ target out, Event.upload target out ∈ s'.log.drop s.log.length → out = Spec.Codec.text (selected q text) r.stdout := by
    intro target out hm
    unfold MLState.slotWriteDiffOutput at h
    split at h
    · cases h
    · cases h
      dsimp only at hm
      split at hm
      · split at hm
        · have : ((s.emit (.upload s.diffURL (r.decoded (processCodec q (runText q text))).stdout)).emit (.status .FinishedWritingDiff)).log =
              s.log ++ [.upload s.diffURL (r.decoded (processCodec q (runText q text))).stdout, .status .FinishedWritingDiff] := by
            show (s.log ++ [_]) ++ [_] = _
            rw [List.append_assoc]; rfl
          rw [this, List.drop_left] at hm
          simp only [List.mem_cons, Event.upload.injEq, reduceCtorEq, List.not_mem_nil, or_false] at hm
          rw [hm.2]; exact (C55_process q text henc r).1
        · have : (s.emit (.status .FinishedWritingDiff)).log = s.log ++ [.status .FinishedWritingDiff] := rfl
          rw [this, List.drop_left] at hm
          simp at hm
      · simp at hm
  refine ⟨fun target out hm => by rw [key target out hm]; rfl, fun hsel d hd ho target out hm => ?_⟩
  rw [key target out hm, hsel, ho, utf8_text hd]; rfl

/-! ### The hypotheses are met -/

/-- A system with UTF-8 that knows Latin-1. -/
def exampleCodecs : Codecs := { named := fun n => if n = str "ISO-8859-1" then some latin1 else none, system := utf8 }

/-- Latin-1 is chosen, a file is read, then `Default`. -/
example : selected exampleCodecs [.setEncoding (str "ISO-8859-1"), .readFile [0xC3]] = latin1 ∧
    selected exampleCodecs [.setEncoding (str "ISO-8859-1"), .readFile [0xC3], .setEncoding (str "Default")] = utf8 ∧
    chosen [.setEncoding (str "ISO-8859-1"), .readFile [0xC3]] ≠ none := ⟨rfl, rfl, by decide⟩

/-- A file that ends within a sequence does not disturb the next one. -/
example : ((runText exampleCodecs [.readFile [0xC3]]).readFile exampleCodecs [0xA4, 0x61]).2 = [Char.ofNat 0xFFFD, 'a'] := by
  rw [C55_read]; decide

/-- A text with characters of one, two, three and four bytes. -/
example : NoBom [Char.ofNat 0x61, Char.ofNat 0xE4, Char.ofNat 0x20AC, Char.ofNat 0x1F600] ∧
    utf8Encode [Char.ofNat 0x61, Char.ofNat 0xE4, Char.ofNat 0x20AC, Char.ofNat 0x1F600] =
      [0x61, 0xC3, 0xA4, 0xE2, 0x82, 0xAC, 0xF0, 0x9F, 0x98, 0x80] := by
  refine ⟨?_, by decide⟩
  intro c hc
  cases hc
  decide

/-- `ä` in Latin-1 is written as two bytes. -/
example : streamBytes (Spec.Codec.text latin1 [0xE4]) = [0xC3, 0xA4] := by decide

/-- The directory of the example, in bytes. -/
def exampleBytes (f : Str) : List UInt8 := utf8Encode (exampleDir.contents f)

example (st : List UInt8) : ∃ s1 ms, exampleCompare.slotDiffProcessFinished (exampleDir.decoded exampleCodecs (runText exampleCodecs []) exampleBytes)
    (RawResult.decoded (processCodec exampleCodecs (runText exampleCodecs [])) ⟨1, .NormalExit, utf8Encode exampleDiff.render.flatten, st⟩) = Res.ok s1 ∧
    s1.models = some ms ∧ ms.length = 2 := by
  have key : ∀ f ∈ exampleDiff.files, originalBytes exampleDir exampleBytes (str "old") (unescapePath false f.src.name) =
      utf8Encode (original exampleDir (str "old") (unescapePath false f.src.name)) ∧
      NoBom (original exampleDir (str "old") (unescapePath false f.src.name)) := by
    intro f hf
    simp only [exampleDiff, List.mem_cons, List.not_mem_nil, or_false] at hf
    rcases hf with rfl | rfl
    · have e1 : original exampleDir (str "old") (unescapePath false (str "b.txt")) = exampleOld := by decide
      dsimp only
      rw [e1]
      refine ⟨by decide, ?_⟩
      intro c hc
      have : exampleOld.head? = some c := hc
      have h2 : ∀ c ∈ exampleOld.head?, c.toNat ≠ 0xFEFF := by decide
      exact h2 c hc
    · have e1 : original exampleDir (str "old") (unescapePath false (str "a.txt")) = [] := by decide
      dsimp only
      rw [e1]
      exact ⟨by decide, fun c hc => by cases hc⟩
  obtain ⟨s1, ms, fs, h1, h2, h3, h4, _⟩ := C55_compare_utf8 (e := exampleDir) exampleCodecs [] exampleBytes
    ⟨1, .NormalExit, utf8Encode exampleDiff.render.flatten, st⟩ (.inr rfl) rfl
    exampleCompare_reachable rfl (by decide) ⟨rfl, by show (1 : Int) ≠ 0; decide⟩ exampleDiff rfl
    (by
      have h2 : ∀ c ∈ exampleDiff.render.flatten.head?, c.toNat ≠ 0xFEFF := by decide
      exact h2) exampleDiff_ok ⟨_, List.mem_cons_self .., by decide⟩ (.inl (by decide))
    (fun f => original exampleDir (str "old") (unescapePath false f.src.name)) exampleNews
    (fun f hf hch => ⟨(key f hf).1, (key f hf).2, example_originals f hf hch⟩)
  exact ⟨s1, ms, h1, h2, by rw [h4, h3.length_eq]; decide⟩

end KompareDiff2
