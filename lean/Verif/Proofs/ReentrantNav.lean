import Verif.Proofs.ReentrantOpen

/-!
Receivers that call slots keep the navigation actions right (C69).
-/

namespace KompareDiff2
open Spec

/-- The navigation actions stay right. -/
def Navs (s s' : MLState) : Prop := NavigationRight s → NavigationRight s'

theorem Navs.trans {a b c : MLState} (h : Navs a b) (g : Navs b c) : Navs a c := fun x => g (h x)

/-- The receivers keep them right. -/
def CallNavs (ms : List Nat) (s0 : MLState) (call : MLState → Res MLState) : Prop :=
  ∀ s s', Midway ms s0 s → call s = Res.ok s' → Navs s s'

theorem navs_emit (s : MLState) (e : Event) : Navs s (s.emit e) := fun h => ⟨h.1, h.2, h.3, h.4⟩

theorem navs_save (s : MLState) (b : Bool) : Navs s { s with actions := { s.actions with save := b } } := fun h => ⟨h.1, h.2, h.3, h.4⟩

/-- An operation without receivers. -/
theorem navs_run {ms : List Nat} {s0 s s' : MLState} (h : Midway ms s0 s) {op : UserOp} (hop : op.Ok s0) (e : op.run s = Res.ok s') : Navs s s' := by
  intro hr
  obtain ⟨k, j, m, d, a⟩ := h.atIt
  obtain ⟨t, k', j', m', d', g, hn, _⟩ := user_nav h.opened a hr op (hop.frame h.frame)
  have := g.ok
  rw [e] at this
  cases this
  exact hn

theorem applyR_navs {ms : List Nat} {s0 s s' : MLState} {call : MLState → Res MLState} (hc : CallNavs ms s0 call) (h : Midway ms s0 s) {b : Bool}
    (e : s.applyR call b = Res.ok s') : Navs s s' := by
  obtain ⟨t, h1, h2⟩ := single_fine (op := .applySlot b) h trivial
  have h1' : s.slotApplyDifference b = Res.ok t := h1
  unfold MLState.applyR at e
  rw [h1', Res.bind_ok] at e
  exact (navs_run h (op := .applySlot b) trivial h1).trans (hc _ _ h2 e)

theorem applyAllR_navs {ms : List Nat} {s0 s s' : MLState} {call : MLState → Res MLState} (hc : CallNavs ms s0 call) (h : Midway ms s0 s) {b : Bool}
    (e : s.applyAllR call b = Res.ok s') : Navs s s' := by
  obtain ⟨t, h1, h2⟩ := single_fine (op := .applyAllSlot b) h trivial
  have h1' : s.slotApplyAllDifferences b = Res.ok t := h1
  unfold MLState.applyAllR at e
  rw [h1', Res.bind_ok] at e
  exact (navs_run h (op := .applyAllSlot b) trivial h1).trans (hc _ _ h2 e)

theorem errorR_navs {ms : List Nat} {s0 s : MLState} {r : MLState × Bool} {call : MLState → Res MLState} (hc : CallNavs ms s0 call) (h : Midway ms s0 s)
    {k : ErrorKind} {b : Bool} (e : s.errorR call k b = Res.ok r) : Navs s r.1 := by
  unfold MLState.errorR at e
  obtain ⟨t, h1, e⟩ := Res.bind_eq_ok.1 e
  cases e
  exact (navs_emit s (.error k)).trans (hc _ _ (h.emit _) h1)

theorem saveDestinationR_navs {ms : List Nat} {s0 s : MLState} {r : MLState × Bool} {call : MLState → Res MLState} (hc : CallNavs ms s0 call) (h : Midway ms s0 s)
    {v : MLState.SaveEnv} {m : Nat} (hm : m ∈ ms) (e : s.saveDestinationR call v m = Res.ok r) : Navs s r.1 := by
  unfold MLState.saveDestinationR at e
  rw [h.opened.model hm, Res.bind_ok] at e
  split at e
  · cases e; exact id
  split at e
  · exact errorR_navs hc h e
  split at e
  · exact errorR_navs hc h e
  split at e
  · exact errorR_navs hc h e
  split at e
  · cases e
  split at e
  · exact errorR_navs hc h e
  split at e
  · exact errorR_navs hc h e
  · refine navs_run h (op := .saveModel v m) ?_ (by simp only [UserOp.run]; rw [e]; rfl)
    show m ∈ _
    rw [← h.frame.models, h.opened.models]
    exact hm

theorem saveLoopR_navs {ms : List Nat} {s0 : MLState} {call : MLState → Res MLState} (hf : CallFine ms s0 call) (hc : CallNavs ms s0 call)
    {v : Nat → MLState.SaveEnv} : ∀ (l : List Nat) (s : MLState) {r : MLState × Bool}, Midway ms s0 s → (∀ x ∈ l, x ∈ ms) →
      MLState.saveLoopR call v l s = Res.ok r → Navs s r.1
  | [], s, r, h, _, e => by cases e; exact id
  | m :: l, s, r, h, hl, e => by
    simp only [MLState.saveLoopR] at e
    obtain ⟨t, h1, e⟩ := Res.bind_eq_ok.1 e
    have k := saveDestinationR_navs hc h (hl m (by simp)) h1
    have hm := (saveDestinationR_fine hf h (v m) (hl m (by simp))).ok h1
    split at e
    · cases e; exact k
    · exact k.trans (saveLoopR_navs hf hc l t.1 hm (fun x hx => hl x (List.mem_cons_of_mem _ hx)) e)

theorem slotSaveR_navs {ms : List Nat} {s0 s s' : MLState} {call : MLState → Res MLState} (hf : CallFine ms s0 call) (hc : CallNavs ms s0 call)
    (h : Midway ms s0 s) {v : MLState.SaveEnv} (e : s.slotSaveR call v = Res.ok s') : Navs s s' := by
  obtain ⟨k, j, m, d, a⟩ := h.atIt
  unfold MLState.slotSaveR at e
  rw [a.selectedModel] at e
  dsimp only at e
  obtain ⟨r, h1, e⟩ := Res.bind_eq_ok.1 e
  have k := saveDestinationR_navs hc h (h.opened.mem a.model) h1
  have hm := (saveDestinationR_fine hf h v (h.opened.mem a.model)).ok h1
  refine k.trans ?_
  split at e
  · exact ((navs_save r.1 false).trans (navs_emit _ .updateActions)).trans (hc _ _ ((hm.actions { r.1.actions with save := false }).emit _) e)
  · exact (navs_emit r.1 .updateActions).trans (hc _ _ (hm.emit _) e)

theorem FineR.ok {ms : List Nat} {s0 s' : MLState} {x : Res MLState} (h : FineR ms s0 x) (e : x = Res.ok s') : Midway ms s0 s' ∧ Right s' := by
  rcases h with h | ⟨t, h, hm⟩
  · rw [h] at e; cases e
  · rw [h] at e; cases e; exact hm

theorem runR_navs {ms : List Nat} {s0 s s' : MLState} {call : MLState → Res MLState} (hf : CallFine ms s0 call) (hc : CallNavs ms s0 call)
    (h : Midway ms s0 s) {op : UserOp} (hop : op.Ok s0) (e : op.runR call s = Res.ok s') : Navs s s' := by
  by_cases hu : op.updates = true
  · exact fun _ => (((runR_fine hf h op hop).2 hu).ok e).2.1
  · cases op with
    | applySlot b => exact applyR_navs hc h e
    | applyAllSlot b => exact applyAllR_navs hc h e
    | setReadWrite b => exact navs_run h (op := .setReadWrite b) trivial e
    | save v => exact slotSaveR_navs hf hc h e
    | saveModel v m =>
      obtain ⟨r, h1, h2⟩ := Res.bind_eq_ok.1 e
      cases h2
      have hop' : m ∈ s0.models.getD [] := hop
      rw [← h.frame.models, h.opened.models] at hop'
      exact saveDestinationR_navs hc h hop' h1
    | saveAll v =>
      obtain ⟨r, h1, h2⟩ := Res.bind_eq_ok.1 e
      cases h2
      unfold MLState.saveAllR at h1
      rw [h.opened.models] at h1
      split at h1
      · rename_i e; cases e
      · cases h1; exact id
      · rename_i e; cases e
        exact saveLoopR_navs hf hc ms s h (fun _ hx => hx) h1
    | _ => exact absurd rfl hu

theorem callsR_navs {ms : List Nat} {s0 : MLState} {call : MLState → Res MLState} (hf : CallFine ms s0 call) (hc : CallNavs ms s0 call) :
    ∀ (ops : List UserOp), (∀ op ∈ ops, op.Ok s0) → ∀ s s', Midway ms s0 s → callsR (UserOp.runR call) ops s = Res.ok s' → Navs s s'
  | [], _, s, s', h, e => by cases e; exact id
  | op :: ops, hr, s, s', h, e => by
    simp only [callsR] at e
    obtain ⟨t, h1, e⟩ := Res.bind_eq_ok.1 e
    have hop := hr op (by simp)
    exact (runR_navs hf hc h hop h1).trans (callsR_navs hf hc ops (fun o ho => hr o (List.mem_cons_of_mem _ ho)) t s' ((runR_fine hf h op hop).1.ok h1) e)

theorem react_navs {ms : List Nat} {s0 : MLState} {f : Receivers} (hf : ∀ log, ∀ op ∈ f log, op.Ok s0) : ∀ n, CallNavs ms s0 (f.react n)
  | 0, s, s', h, e => by
    unfold Receivers.react at e
    split at e
    · cases e; exact id
    · cases e
  | n + 1, s, s', h, e => by
    unfold Receivers.react at e
    exact callsR_navs (react_fine hf n) (react_navs hf n) _ (hf _) s s' h e

theorem showR_navs {ms : List Nat} {s0 s s' : MLState} {call : MLState → Res MLState} (hf : CallFine ms s0 call) (hc : CallNavs ms s0 call)
    (h : Midway ms s0 s) (e : s.showR call = Res.ok s') : Midway ms s0 s' ∧ Navs s s' := by
  unfold MLState.showR at e
  obtain ⟨t, h1, e⟩ := Res.bind_eq_ok.1 e
  have m1 := h.emit (.modelsChanged s.models)
  have m2 := (hf _ m1).ok h1
  have m3 := m2.emit (.selection t.selectedModel t.selectedDifference)
  exact ⟨(hf _ m3).ok e, (((navs_emit _ _).trans (hc _ _ m1 h1)).trans (navs_emit _ _)).trans (hc _ _ m3 e)⟩

theorem openEndR_right {ms : List Nat} {s0 s s' : MLState} {call : MLState → Res MLState} (hf : CallFine ms s0 call) (hc : CallNavs ms s0 call)
    (h : Midway ms s0 s) (e : openEndR call s = Res.ok s') : NavigationRight s' := by
  unfold openEndR at e
  obtain ⟨t, h1, e⟩ := Res.bind_eq_ok.1 e
  obtain ⟨u, h2, e⟩ := Res.bind_eq_ok.1 e
  obtain ⟨v, h3, e⟩ := Res.bind_eq_ok.1 e
  obtain ⟨hu, hr⟩ := (((hf _ h).ok h1).update).ok h2
  obtain ⟨hv, k⟩ := showR_navs hf hc hu h3
  exact ((k.trans (navs_emit _ _)).trans (hc _ _ (hv.emit _) e)) hr.1

theorem showR_told {ms : List Nat} {s0 s s' : MLState} {call : MLState → Res MLState} (hf : CallFine ms s0 call) (hc : CallTells ms s0 call)
    (h : Midway ms s0 s) (e : s.showR call = Res.ok s') : Told s' := by
  unfold MLState.showR at e
  obtain ⟨t, h1, e⟩ := Res.bind_eq_ok.1 e
  have m2 := (hf _ (h.emit (.modelsChanged s.models))).ok h1
  have m3 := m2.emit (.selection t.selectedModel t.selectedDifference)
  refine (hc _ _ m3 e ?_).1
  have e1 : heard (t.log ++ [.selection t.selectedModel t.selectedDifference]) = _ := heard_snoc _ _
  unfold Told
  show (heard (t.log ++ [_])).model = _ ∧ (heard (t.log ++ [_])).diff = _
  rw [e1]
  exact ⟨rfl, rfl⟩

end KompareDiff2
