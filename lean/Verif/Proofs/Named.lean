import Verif.Proofs.EndToEnd
import Verif.Proofs.Events
/-
Operations that leave the names of the models alone.
-/
namespace KompareDiff2
open Spec

/-- Nothing happens to the names, and the differences that exist stay as they are. -/
structure Named (s s' : MLState) : Prop where
  source : ∀ x, (s'.store x).source = (s.store x).source
  destination : ∀ x, (s'.store x).destination = (s.store x).destination
  heap : s.heap.Ext s'.heap

theorem Named.refl (s : MLState) : Named s s := ⟨fun _ => rfl, fun _ => rfl, .refl _⟩
theorem Named.trans {a b c : MLState} (h1 : Named a b) (h2 : Named b c) : Named a c :=
  ⟨fun x => (h2.source x).trans (h1.source x), fun x => (h2.destination x).trans (h1.destination x), h1.heap.trans h2.heap⟩

theorem named_setModel (s : MLState) (i : Nat) (m : DModel) (h1 : m.source = (s.store i).source) (h2 : m.destination = (s.store i).destination) :
    Named s (s.setModel i m) := by
  refine ⟨fun x => ?_, fun x => ?_, .refl _⟩
  · show (if x = i then m else s.store x).source = _
    split
    · rename_i q; subst q; exact h1
    · rfl
  · show (if x = i then m else s.store x).destination = _
    split
    · rename_i q; subst q; exact h2
    · rfl

theorem named_firstModel {s s' : MLState} (h : s.firstModel = Res.ok s') : Named s s' := by
  unfold MLState.firstModel at h
  obtain ⟨l, _, h⟩ := Res.bind_eq_ok.1 h
  obtain ⟨m, _, h⟩ := Res.bind_eq_ok.1 h
  cases h; exact ⟨fun _ => rfl, fun _ => rfl, .refl _⟩

theorem firstDifference_names {m : DModel} {r : DModel × Option Nat} (h : m.firstDifference = Res.ok r) :
    r.1.source = m.source ∧ r.1.destination = m.destination := by
  simp only [DModel.firstDifference] at h
  repeat' first | (split at h) | (obtain ⟨_, _, h⟩ := Res.bind_eq_ok.1 h)
  all_goals first | (cases h; exact ⟨rfl, rfl⟩) | skip

theorem named_selectFirst {s s' : MLState} (h : s.selectFirst = Res.ok s') : Named s s' := by
  unfold MLState.selectFirst at h
  obtain ⟨m, _, h⟩ := Res.bind_eq_ok.1 h
  unfold MLState.selectWith at h
  obtain ⟨r, hr, h⟩ := Res.bind_eq_ok.1 h
  obtain ⟨h1, h2⟩ := firstDifference_names hr
  cases h
  exact (named_setModel s m r.1 h1 h2).trans ⟨fun _ => rfl, fun _ => rfl, .refl _⟩

theorem named_blendFile {s s' : MLState} {m : Nat} {c : Str} (h : s.blendFile m c = Res.ok s') : Named s s' := by
  unfold MLState.blendFile at h
  obtain ⟨i, _, h⟩ := Res.bind_eq_ok.1 h
  obtain ⟨t, h1, h⟩ := Res.bind_eq_ok.1 h
  have k : Named s ({ (s.setModel i ((s.store i).blend s.heap c).1) with heap := ((s.store i).blend s.heap c).2 } : MLState) := by
    have := named_setModel s i ((s.store i).blend s.heap c).1 rfl rfl
    exact ⟨this.source, this.destination, blend_ext _ _ _⟩
  exact (k.trans (named_firstModel h1)).trans (named_selectFirst h)

theorem named_blendDirLoop {e : Env} {dir : Str} (l : List Nat) : ∀ {s : MLState} {b : Bool} {r : MLState × Bool},
    MLState.blendDirLoop e dir l s b = Res.ok r → Named s r.1 := by
  induction l with
  | nil => intro s b r h; cases h; exact .refl s
  | cons m l ih =>
    intro s b r h
    simp only [MLState.blendDirLoop] at h
    obtain ⟨i, _, h⟩ := Res.bind_eq_ok.1 h
    obtain ⟨t, h1, h⟩ := Res.bind_eq_ok.1 h
    exact (named_blendFile h1).trans (ih h)

theorem named_blendOriginal {e : Env} {url : Str} {s : MLState} {r : MLState × Bool} (h : s.blendOriginal e url = Res.ok r) : Named s r.1 := by
  unfold MLState.blendOriginal at h
  split at h
  · obtain ⟨l, _, h⟩ := Res.bind_eq_ok.mp h
    exact named_blendDirLoop l h
  · split at h
    · obtain ⟨l, _, h⟩ := Res.bind_eq_ok.mp h
      obtain ⟨m, _, h⟩ := Res.bind_eq_ok.mp h
      obtain ⟨t, h1, h⟩ := Res.bind_eq_ok.mp h
      rw [← Res.ok.inj h]
      exact named_blendFile h1
    · rw [← Res.ok.inj h]; exact .refl s

theorem named_update {s s' : MLState} (h : s.updateActions = Res.ok s') : s'.store = s.store ∧ s'.heap = s.heap ∧ s'.models = s.models := by
  have k := quiet_updateActions h
  unfold MLState.updateActions at h
  repeat' first | (split at h) | (obtain ⟨_, _, h⟩ := Res.bind_eq_ok.1 h)
  all_goals first | (cases h; exact ⟨rfl, rfl, rfl⟩) | skip

end KompareDiff2
