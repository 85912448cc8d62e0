import Verif.Proofs.ReentrantEnds
import Verif.Proofs.Opening

/-!
Receivers that call slots while a diff is opened (C69).
-/

namespace KompareDiff2
open Spec

/-- Nothing is done at these signals. -/
def Patient (call : MLState → Res MLState) : Prop := ∀ (s : MLState) (e : Event), Event.early e = true → call (s.emit e) = Res.ok (s.emit e)

theorem react_patient {f : Receivers} (hf : ∀ log e, e.early = true → f (log ++ [e]) = []) (n : Nat) : Patient (f.react n) := by
  intro s e he
  have : f (s.emit e).log = [] := hf s.log e he
  cases n with
  | zero => unfold Receivers.react; rw [if_pos this]
  | succ n => unfold Receivers.react; rw [this]; rfl

theorem clearR_patient {call : MLState → Res MLState} (hp : Patient call) (s : MLState) : s.clearR call = Res.ok s.clear := by
  unfold MLState.clearR MLState.clear
  refine hp _ _ ?_
  cases s.models <;> rfl

/-- `openFirstR` without receivers. -/
def openFirst (s : MLState) : Res MLState := do
  let s ← s.firstModel
  let s ← s.selectFirst
  let dc ← s.differenceCount
  Res.ok (s.emit (.statusBar 0 0 s.modelCount dc 0))

/-- `parseDiffOutput` up to the last signal. -/
def parsePre (e : Env) (s : MLState) (text : Str) : Res (MLState × Bool) := do
  let r ← parse e.win e.cmp s.heap (split text)
  let cleaned ← cleanUpCrap (split text)
  let s := (s.emit (.diffString text)).resetModels r
  match s.info with
  | none => Res.ub
  | some i => do
    let s := { s with info := some { i with generator := some (determineGenerator (split text)), format := determineFormat (determineGenerator (split text)) cleaned } }
    match s.models with
    | none => Res.ok (s, false)
    | some _ => do
      let t ← openFirst (if r.malformed then s.emit (.error .malformed) else s)
      Res.ok (t, true)

theorem parseDiffOutput_pre (e : Env) (s : MLState) (text : Str) : s.parseDiffOutput e text = parsePre e s text := by
  unfold MLState.parseDiffOutput parsePre openFirst
  dsimp only
  show (parse e.win e.cmp s.heap (split text) >>= _) = _
  cases parse e.win e.cmp s.heap (split text) <;> try rfl
  rename_i r
  simp only [Res.bind_ok]
  cases cleanUpCrap (split text) <;> try rfl
  rename_i c
  simp only [Res.bind_ok]
  generalize MLState.resetModels _ r = t
  cases t.info <;> try rfl
  rename_i i
  dsimp only
  cases hm : t.models <;> try rfl
  dsimp only
  generalize MLState.firstModel _ = x
  cases x <;> try rfl
  rename_i u
  simp only [Res.bind_ok]
  cases u.selectFirst <;> try rfl
  rename_i v
  simp only [Res.bind_ok]
  cases v.differenceCount <;> rfl

/-- With receivers that wait, `parseDiffOutput` calls them once, at its end. -/
theorem parseDiffOutputR_patient {call : MLState → Res MLState} (hp : Patient call) (e : Env) (s : MLState) (text : Str) :
    s.parseDiffOutputR call e text = (s.parseDiffOutput e text >>= fun r => if r.2 then (call r.1 >>= fun t => Res.ok (t, true)) else Res.ok r) := by
  rw [parseDiffOutput_pre]
  unfold MLState.parseDiffOutputR parsePre
  rw [hp _ _ rfl, Res.bind_ok]
  dsimp only
  show (parse e.win e.cmp s.heap (split text) >>= _) = _
  cases parse e.win e.cmp s.heap (split text) <;> try rfl
  rename_i r
  simp only [Res.bind_ok]
  cases cleanUpCrap (split text) <;> try rfl
  rename_i c
  simp only [Res.bind_ok]
  generalize MLState.resetModels _ r = t
  cases t.info <;> try rfl
  rename_i i
  dsimp only
  cases hm : t.models <;> try rfl
  dsimp only
  have key : ∀ x : MLState, MLState.openFirstR call x = (openFirst x >>= fun u => Res.ok (u, true)) >>= fun r =>
      if r.2 then (call r.1 >>= fun t => Res.ok (t, true)) else Res.ok r := by
    intro x
    unfold MLState.openFirstR openFirst
    cases x.firstModel <;> try rfl
    rename_i u
    simp only [Res.bind_ok]
    cases u.selectFirst <;> try rfl
    rename_i v
    simp only [Res.bind_ok]
    cases v.differenceCount <;> rfl
  split
  · rw [hp _ _ rfl, Res.bind_ok]; exact key _
  · exact key _

/-- The end of an opening. -/
def openEndR (call : MLState → Res MLState) (s : MLState) : Res MLState := do
  let s ← call s
  let s ← s.updateActions
  let s ← s.showR call
  call (s.emit (.status .FinishedParsing))

theorem parseAndOpenDiffR_patient {call : MLState → Res MLState} (hp : Patient call) (e : Env) (s : MLState) (text : Str) :
    s.parseAndOpenDiffR call e text = ((s.clear.emit (.status .Parsing)).parseDiffOutput e text >>= fun r =>
      if r.2 then (openEndR call r.1 >>= fun t => Res.ok (t, true)) else Res.ok (r.1.emit (.error .couldNotParse), false)) := by
  unfold MLState.parseAndOpenDiffR
  rw [clearR_patient hp, Res.bind_ok, hp _ _ rfl, Res.bind_ok, parseDiffOutputR_patient hp]
  cases (s.clear.emit (.status .Parsing)).parseDiffOutput e text <;> try rfl
  rename_i r
  obtain ⟨t, b⟩ := r
  simp only [Res.bind_ok]
  cases b with
  | false =>
    simp only [Bool.false_eq_true, if_false, Res.bind_ok]
    rw [if_pos trivial, hp _ _ rfl]; rfl
  | true =>
    simp only [if_true]
    unfold openEndR
    cases call t <;> try rfl
    rename_i u
    simp only [Res.bind_ok]
    rw [if_neg (by simp)]
    cases u.updateActions <;> try rfl
    rename_i v
    simp only [Res.bind_ok]
    cases v.showR call <;> try rfl

/-- What is open does not depend on signals and actions. -/
theorem Frame.opened {s t s1 : MLState} {e : Env} {text : Str} (h : (s.clear.emit (.status .Parsing)).parseDiffOutput e text = Res.ok (t, true))
    (h1 : s.parseAndOpenDiff e text = Res.ok (s1, true)) : Frame s1 t := by
  unfold MLState.parseAndOpenDiff at h1
  dsimp only at h1
  rw [h, Res.bind_ok] at h1
  dsimp only at h1
  rw [if_neg (by simp)] at h1
  obtain ⟨u, h2, h1⟩ := Res.bind_eq_ok.1 h1
  obtain ⟨ac, rfl⟩ := updateActions_only h2
  cases h1
  exact ⟨rfl, rfl, rfl, rfl, rfl, rfl, rfl, rfl, fun _ => rfl, fun _ => rfl, fun _ => .refl _, fun _ => rfl⟩

theorem openEndR_fine {ms : List Nat} {s0 s : MLState} {call : MLState → Res MLState} (hc : CallFine ms s0 call) (h : Midway ms s0 s) :
    Fine ms s0 (openEndR call s) := by
  unfold openEndR
  refine (hc _ h).bind (fun t ht => ht.update.fine.bind (fun u hu => Fine.bind ?_ (fun v hv => hc _ (hv.emit _))))
  unfold MLState.showR
  exact (hc _ (hu.emit _)).bind (fun w hw => hc _ (hw.emit _))

theorem openDiffR_eq (call : MLState → Res MLState) (e : Env) (s : MLState) (file : Str) (hf : file ≠ []) :
    s.openDiffR call e file = s.parseAndOpenDiffR call e (e.contents file) := by
  unfold MLState.openDiffR MLState.parseAndOpenDiffR
  rw [if_neg hf]

theorem openDiff_eq (e : Env) (s : MLState) (file : Str) (hf : file ≠ []) : s.openDiff e file = s.parseAndOpenDiff e (e.contents file) := by
  unfold MLState.openDiff MLState.parseAndOpenDiff
  rw [if_neg hf]

end KompareDiff2
