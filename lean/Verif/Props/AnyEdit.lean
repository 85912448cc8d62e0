import Verif.Proofs.AnyEdit
/-
C17 for every model, described or not.
-/
namespace KompareDiff2
open Spec

/-- **C17.**  Every model (whether its differences describe the text or not), every edit, lines and blocks of any size: whenever the call
returns, each inserted difference is applied, unsaved, not a conflict and not empty, its tracking line number is its destination line
number, and its type is the one its sides determine. -/
theorem C17_inserted_any_model (hash : Str → Nat) (m m' : DModel) (h h' : Heap) (old new : List Str) (e : Int) (ins rem : List Nat)
    (hv : m.Valid h) (hr : m.linesChanged hash h old new e = Res.ok (m', h', ins, rem)) (i : Nat) (hi : i ∈ ins) :
    (h'.cell i).applied = true ∧ (h'.cell i).unsaved = true ∧ (h'.cell i).conflicts = false ∧
    0 < (h'.cell i).slc + (h'.cell i).dlc ∧ (h'.cell i).destLineNo = (h'.cell i).tracking ∧
    ((h'.cell i).type = .Change ↔ 0 < (h'.cell i).slc ∧ 0 < (h'.cell i).dlc) ∧
    ((h'.cell i).type = .Delete ↔ (h'.cell i).dlc = 0) ∧ ((h'.cell i).type = .Insert ↔ (h'.cell i).slc = 0) := by
  have hr' := hr
  unfold DModel.linesChanged at hr'
  rw [Res.bind_eq_ok] at hr'
  obtain ⟨r, hr', _⟩ := hr'
  obtain ⟨m1, h1, ins1, rem1, pre, post, h2, _, _, _, _, _, _, _, _, _, _, h13, _⟩ := DModel.linesChanged_heap hv hr'
  rw [hr] at h2
  cases h2
  have hc := linesChanged_created hr' (h'.cell i) (by rw [← h13]; exact List.mem_map_of_mem hi)
  have ht := hc.type
  have hn := hc.nonempty
  refine ⟨hc.applied, hc.unsaved, hc.noConflict, hn, hc.tracking, ?_, ?_, ?_⟩ <;> rw [ht] <;> split
  · simp; omega
  · split <;> simp <;> omega
  · simp; omega
  · split <;> simp <;> omega
  · simp; omega
  · split <;> simp <;> omega

/-- The unapplied insertion of C15's counterexample, for which the differences describe nothing afterwards: the call returns, and C17 applies. -/
example (hash : Str → Nat) (l : Nat → Str) (x : Str) (hx : x ≠ l 8) (hl : ∀ i, ShortLine (l i)) (hxs : ShortLine x) (h : Heap) (m : DModel)
    (hm : m.differences = [0]) (hc : h.cell 0 = unfairDiff) (hn : h.next = 1) :
    m.Valid h ∧ ∃ r, m.linesChanged hash h [l 8] [x] 8 = Res.ok r := by
  obtain ⟨_, m', h', ins, rem, hr, _⟩ := C15_unfair_counterexample hash l x hx hl hxs h m hm hc hn
  exact ⟨⟨by rw [hm]; simp, by rw [hm]; simp [hn]⟩, _, hr⟩

end KompareDiff2
