import Verif.Spec.Nested
import Verif.Proofs.Lifetime
/-
What the end of a comparison leaves alone: the models and differences there were before.
-/
namespace KompareDiff2
open Spec

/-- All but what is found out about the text that was read. -/
def Info.unread (i : Info) : Info := { i with generator := none, format := .UnknownFormat }

/-- The first `n` models and the first `k` differences are the same, and so are the operands. -/
structure Beyond (n k : Nat) (s s' : MLState) : Prop where
  store : ∀ m, m < n → s'.store m = s.store m
  cells : ∀ d, d < k → s'.heap.cell d = s.heap.cell d
  next : k ≤ s.heap.next → k ≤ s'.heap.next
  nextModel : n ≤ s.nextModel → n ≤ s'.nextModel
  info : s'.info.map Info.unread = s.info.map Info.unread
  settings : s'.settings = s.settings

theorem Beyond.refl (n k : Nat) (s : MLState) : Beyond n k s s := ⟨fun _ _ => rfl, fun _ _ => rfl, id, id, rfl, rfl⟩

theorem Beyond.trans {n k : Nat} {a b c : MLState} (h : Beyond n k a b) (h' : Beyond n k b c) : Beyond n k a c :=
  ⟨fun m hm => (h'.store m hm).trans (h.store m hm), fun d hd => (h'.cells d hd).trans (h.cells d hd), fun q => h'.next (h.next q),
    fun q => h'.nextModel (h.nextModel q), h'.info.trans h.info, h'.settings.trans h.settings⟩

theorem Beyond.weaken {n k n' k' : Nat} {s s' : MLState} (h : Beyond n' k' s s') (hn : n ≤ n') (hk : k ≤ k')
    (h1 : n' ≤ s.nextModel) (h2 : k' ≤ s.heap.next) : Beyond n k s s' :=
  ⟨fun m hm => h.store m (by omega), fun d hd => h.cells d (by omega), fun _ => Nat.le_trans hk (h.next h2),
    fun _ => Nat.le_trans hn (h.nextModel h1), h.info, h.settings⟩

/-- All models of the list are new. -/
def NewList (n : Nat) (s : MLState) : Prop := ∀ m ∈ s.models.getD [], n ≤ m

theorem beyond_emit (n k : Nat) (s : MLState) (e : Event) : Beyond n k s (s.emit e) := ⟨fun _ _ => rfl, fun _ _ => rfl, id, id, rfl, rfl⟩

theorem beyond_setModel {n k : Nat} {s : MLState} {m : Nat} {x : DModel} {h : Heap} (hm : n ≤ m) (he : s.heap.Ext h) (hk : k ≤ s.heap.next) :
    Beyond n k s { (s.setModel m x) with heap := h } := by
  refine ⟨fun j hj => ?_, fun d hd => he.2 d (by omega), fun q => Nat.le_trans q he.1, id, rfl, rfl⟩
  show (if j = m then x else s.store j) = s.store j
  rw [if_neg (by omega)]

theorem nested_atR {l : List Nat} {i : Int} {m : Nat} (h : atR l i = Res.ok m) : m ∈ l := by
  unfold atR at h
  split at h
  · cases h
  · split at h
    · cases h
      exact List.mem_of_getElem? (by assumption)
    · cases h

theorem firstModel_same {s s' : MLState} (h : s.firstModel = Res.ok s') :
    ∃ m, m ∈ s.models.getD [] ∧ s' = { s with modelIndex := 0, selectedModel := some m } := by
  unfold MLState.firstModel at h
  obtain ⟨l, h1, h⟩ := Res.bind_eq_ok.1 h
  obtain ⟨m, h2, h⟩ := Res.bind_eq_ok.1 h
  cases h
  refine ⟨m, ?_, rfl⟩
  unfold MLState.list at h1
  split at h1
  · rename_i l' e
    cases h1
    rw [e]
    show m ∈ l
    exact nested_atR h2
  · cases h1

theorem beyond_first {n k : Nat} {s t s' : MLState} (hs : NewList n s) (hk : k ≤ s.heap.next) (h1 : s.firstModel = Res.ok t) (h2 : t.selectFirst = Res.ok s') :
    Beyond n k s s' ∧ s'.models = s.models ∧ s'.process = s.process ∧ s'.heap = s.heap := by
  obtain ⟨m, hm, rfl⟩ := firstModel_same h1
  obtain ⟨m', h3, h4⟩ := Res.bind_eq_ok.1 h2
  unfold MLState.model at h3
  dsimp only at h3
  split at h3
  · cases h3
  · cases h3
    obtain ⟨r, h5, h6⟩ := Res.bind_eq_ok.1 h4
    cases h6
    refine ⟨?_, rfl, rfl, rfl⟩
    refine ⟨fun j hj => ?_, fun _ _ => rfl, id, id, rfl, rfl⟩
    show (if j = m then _ else s.store j) = s.store j
    rw [if_neg (by have := hs m hm; omega)]

theorem beyond_updateActions {n k : Nat} {s s' : MLState} (h : s.updateActions = Res.ok s') : Beyond n k s s' := by
  unfold MLState.updateActions at h
  split at h
  · simp only [Res.bind_eq_ok] at h
    obtain ⟨a, _, b, _, c, _, d, _, h⟩ := h
    cases h; exact ⟨fun _ _ => rfl, fun _ _ => rfl, id, id, rfl, rfl⟩
  · cases h; exact ⟨fun _ _ => rfl, fun _ _ => rfl, id, id, rfl, rfl⟩

theorem beyond_blendFile {n k : Nat} {s s' : MLState} {m : Nat} {c : Str} (hs : NewList n s) (hm : n ≤ m) (hk : k ≤ s.heap.next)
    (h : s.blendFile m c = Res.ok s') : Beyond n k s s' ∧ s'.models = s.models := by
  unfold MLState.blendFile at h
  obtain ⟨i, h0, h⟩ := Res.bind_eq_ok.1 h
  unfold MLState.model at h0
  dsimp only at h0
  split at h0
  · cases h0
  cases h0
  obtain ⟨t, h1, h⟩ := Res.bind_eq_ok.1 h
  have b1 : Beyond n k s { (s.setModel m ((s.store m).blend s.heap c).1) with heap := ((s.store m).blend s.heap c).2 } :=
    beyond_setModel hm (blend_ext _ _ _) hk
  have b2 := beyond_first (n := n) (k := k) (s := { (s.setModel m ((s.store m).blend s.heap c).1) with heap := ((s.store m).blend s.heap c).2 })
    hs (b1.next hk) h1 h
  exact ⟨b1.trans b2.1, b2.2.1⟩

theorem beyond_blendDirLoop {n k : Nat} {e : Env} {dir : Str} (l : List Nat) : ∀ {s : MLState} {b : Bool} {r : MLState × Bool},
    NewList n s → (∀ m ∈ l, n ≤ m) → k ≤ s.heap.next → MLState.blendDirLoop e dir l s b = Res.ok r → Beyond n k s r.1 := by
  induction l with
  | nil => intro s b r _ _ _ h; cases h; exact .refl _ _ _
  | cons m ms ih =>
    intro s b r hs hl hk h
    unfold MLState.blendDirLoop at h
    obtain ⟨i, h0, h⟩ := Res.bind_eq_ok.1 h
    unfold MLState.model at h0
    dsimp only at h0
    split at h0
    · cases h0
    cases h0
    obtain ⟨t, h1, h⟩ := Res.bind_eq_ok.1 h
    obtain ⟨b1, e1⟩ := beyond_blendFile hs (hl m (by simp)) hk h1
    refine b1.trans (ih ?_ (fun x hx => hl x (List.mem_cons_of_mem _ hx)) (b1.next hk) h)
    unfold NewList; rw [e1]; exact hs

theorem beyond_blendOriginal {n k : Nat} {e : Env} {url : Str} {s : MLState} {r : MLState × Bool} (hs : NewList n s) (hk : k ≤ s.heap.next)
    (h : s.blendOriginal e url = Res.ok r) : Beyond n k s r.1 := by
  have hl : ∀ l, s.list = Res.ok l → ∀ m ∈ l, n ≤ m := by
    intro l h m hm
    unfold MLState.list at h
    split at h
    · rename_i l' e'
      cases h
      exact hs m (by rw [e']; exact hm)
    · cases h
  unfold MLState.blendOriginal at h
  split at h
  · obtain ⟨l, h1, h⟩ := Res.bind_eq_ok.1 h
    exact beyond_blendDirLoop l hs (hl l h1) hk h
  · split at h
    · obtain ⟨l, h1, h⟩ := Res.bind_eq_ok.1 h
      obtain ⟨m, h2, h⟩ := Res.bind_eq_ok.1 h
      obtain ⟨t, h3, h⟩ := Res.bind_eq_ok.1 h
      cases h
      refine (beyond_blendFile hs (hl l h1 m ?_) hk h3).1
      exact nested_atR h2
    · cases h; exact .refl _ _ _

theorem beyond_parse {e : Env} {s s' : MLState} {text : Str} {b : Bool} (h : s.parseDiffOutput e text = Res.ok (s', b)) :
    Beyond s.nextModel s.heap.next s s' ∧ NewList s.nextModel s' := by
  refine ⟨?_, (parseDiffOutput_next h).2⟩
  unfold MLState.parseDiffOutput at h
  obtain ⟨r, hr, h⟩ := Res.bind_eq_ok.1 h
  obtain ⟨cl, _, h⟩ := Res.bind_eq_ok.1 h
  have hext := (parse_models hr).1
  have h0 : Beyond s.nextModel s.heap.next s ((s.emit (.diffString text)).resetModels r) ∧
      NewList s.nextModel ((s.emit (.diffString text)).resetModels r) := by
    unfold MLState.resetModels NewList
    cases r.models with
    | none => exact ⟨⟨fun _ _ => rfl, fun d hd => hext.2 d hd, fun _ => hext.1, id, rfl, rfl⟩, fun m hm => by cases hm⟩
    | some ms =>
      refine ⟨⟨fun m hm => ?_, fun d hd => hext.2 d hd, fun _ => hext.1, fun _ => Nat.le_add_right _ _, rfl, rfl⟩, fun m hm => ?_⟩
      · show (if s.nextModel ≤ m then _ else s.store m) = _
        rw [if_neg (by omega)]
      · have hm' : m ∈ List.range' s.nextModel ms.length := hm
        exact (List.mem_range'_1.1 hm').1
  dsimp only at h
  generalize (s.emit (.diffString text)).resetModels r = t at h h0
  split at h
  · cases h
  · rename_i i hi
    have bi : ∀ g f, Beyond s.nextModel s.heap.next t { t with info := some { i with generator := g, format := f } } := fun g f =>
      ⟨fun _ _ => rfl, fun _ _ => rfl, id, id, by rw [hi]; rfl, rfl⟩
    split at h
    · cases h; exact h0.1.trans (bi _ _)
    · have fin : ∀ u : MLState, (u.firstModel >>= fun s => s.selectFirst >>= fun s => s.differenceCount >>= fun dc =>
            Res.ok (s.emit (.statusBar 0 0 s.modelCount dc 0), true)) = Res.ok (s', b) →
          Beyond s.nextModel s.heap.next t u → u.models = t.models → Beyond s.nextModel s.heap.next s s' := by
        intro u h h1 h2
        obtain ⟨u1, q1, h⟩ := Res.bind_eq_ok.1 h
        obtain ⟨u2, q2, h⟩ := Res.bind_eq_ok.1 h
        obtain ⟨dc, _, h⟩ := Res.bind_eq_ok.1 h
        have hu : NewList s.nextModel u := by unfold NewList; rw [h2]; exact h0.2
        have hk := (beyond_first hu ((h0.1.trans h1).next (Nat.le_refl _)) q1 q2).1
        cases h
        exact ((h0.1.trans h1).trans hk).trans (beyond_emit _ _ _ _)
      split at h
      · exact fin _ h ((bi _ _).trans (beyond_emit _ _ _ _)) rfl
      · exact fin _ h (bi _ _) rfl

/-- The end of a comparison touches no model and no difference that was there before. -/
theorem beyond_finished {e : Env} {s s' : MLState} {r : ProcessResult} (h : s.slotDiffProcessFinished e r = Res.ok s') :
    Beyond s.nextModel s.heap.next s s' := by
  have hp : ∀ t : MLState, Beyond s.nextModel s.heap.next s t → Beyond s.nextModel s.heap.next s { t with process := none } :=
    fun t q => ⟨q.store, q.cells, q.next, q.nextModel, q.info, q.settings⟩
  unfold MLState.slotDiffProcessFinished at h
  dsimp only at h
  split at h
  · obtain ⟨⟨u, ok⟩, hq, h⟩ := Res.bind_eq_ok.1 h
    have hb := beyond_parse hq
    have b0 : Beyond s.nextModel s.heap.next s u := (beyond_emit _ _ s (.status .Parsing)).trans hb.1
    have hn : NewList s.nextModel u := hb.2
    have hk := b0.next (Nat.le_refl _)
    dsimp only at h
    split at h
    · cases h
      exact hp _ (b0.trans ((beyond_emit _ _ _ _).trans (beyond_emit _ _ _ _)))
    · split at h
      · cases h
      · rename_i i hi
        split at h
        · obtain ⟨z, hv, h⟩ := Res.bind_eq_ok.1 h
          simp only [Res.bind_ok] at h
          obtain ⟨w, hw, h⟩ := Res.bind_eq_ok.1 h
          cases h
          exact hp _ (b0.trans ((beyond_blendOriginal hn hk hv).trans ((beyond_updateActions hw).trans
            ⟨fun _ _ => rfl, fun _ _ => rfl, id, id, rfl, rfl⟩)))
        · simp only [Res.bind_ok] at h
          obtain ⟨w, hw, h⟩ := Res.bind_eq_ok.1 h
          cases h
          exact hp _ (b0.trans ((beyond_updateActions hw).trans ⟨fun _ _ => rfl, fun _ _ => rfl, id, id, rfl, rfl⟩))
  · split at h
    · cases h; exact hp _ (beyond_emit _ _ _ _)
    · cases h; exact hp _ (beyond_emit _ _ _ _)

theorem beyond_processFinished {e : Env} {c : Bool} {s s' : MLState} {r : ProcessResult} (h : s.processFinished e c r = Res.ok s') :
    Beyond s.nextModel s.heap.next s s' := by
  unfold MLState.processFinished at h
  split at h
  · cases h; exact .refl _ _ _
  · exact beyond_finished h
  · simp only [MLState.slotWriteDiffOutput] at h
    split at h
    · cases h
    · cases h
      split
      · split <;> exact ⟨fun _ _ => rfl, fun _ _ => rfl, id, id, rfl, rfl⟩
      · exact ⟨fun _ _ => rfl, fun _ _ => rfl, id, id, rfl, rfl⟩

theorem beyond_deliver {fs : List Finish} : ∀ {s s' : MLState}, s.deliver fs = Res.ok s' → Beyond s.nextModel s.heap.next s s' := by
  induction fs with
  | nil => intro s s' h; cases h; exact .refl _ _ _
  | cons f fs ih =>
    intro s s' h
    obtain ⟨t, h1, h2⟩ := Res.bind_eq_ok.1 h
    have b1 := beyond_processFinished h1
    exact b1.trans ((ih h2).weaken (b1.nextModel (Nat.le_refl _)) (b1.next (Nat.le_refl _)) (Nat.le_refl _) (Nat.le_refl _))

theorem deliver_append (fs gs : List Finish) : ∀ s : MLState, s.deliver (fs ++ gs) = s.deliver fs >>= fun t => t.deliver gs := by
  induction fs with
  | nil => intro s; rfl
  | cons f fs ih =>
    intro s
    show (s.processFinished f.env f.copyOk f.result >>= fun t => t.deliver (fs ++ gs)) =
      (s.processFinished f.env f.copyOk f.result >>= fun t => t.deliver fs) >>= fun t => t.deliver gs
    cases s.processFinished f.env f.copyOk f.result with
    | ok t => simp only [Res.bind_ok]; exact ih t
    | ub => rfl
    | hang => rfl

/-- Nothing that was destroyed comes back. -/
theorem dead_processFinished {e : Env} {c : Bool} {s s' : MLState} {r : ProcessResult} (w : WF s) (h : s.processFinished e c r = Res.ok s') :
    WF s' ∧ ∀ m ∈ s.dead, m ∈ s'.dead := by
  unfold MLState.processFinished at h
  split at h
  · cases h; exact ⟨w, fun _ q => q⟩
  · refine ⟨(diffFinished_spec w h).1, ?_⟩
    rcases reads_finished w h with ⟨_, k⟩ | ⟨_, t, u, e', text, b, k, _, q, k'⟩
    · rw [k.dead]; exact fun _ q => q
    · intro m hm
      rw [k'.dead, (parseDiffOutput_dead q).1, k.dead]
      exact List.mem_append_left _ hm
  · have k := keep_written h
    exact ⟨w.keep k, fun m hm => by rw [k.dead]; exact hm⟩

theorem dead_deliver {fs : List Finish} : ∀ {s s' : MLState}, WF s → s.deliver fs = Res.ok s' → WF s' ∧ ∀ m ∈ s.dead, m ∈ s'.dead := by
  induction fs with
  | nil => intro s s' w h; cases h; exact ⟨w, fun _ q => q⟩
  | cons f fs ih =>
    intro s s' w h
    obtain ⟨t, h1, h2⟩ := Res.bind_eq_ok.1 h
    obtain ⟨w1, d1⟩ := dead_processFinished w h1
    obtain ⟨w2, d2⟩ := ih w1 h2
    exact ⟨w2, fun m hm => d2 m (d1 m hm)⟩

end KompareDiff2
