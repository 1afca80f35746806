import Verif.Future.Pinned

/-! C79: futures are polled as they would be without stabby. -/
namespace Verif.Props.Pinned
open Verif.Future.Pinned

/-- The results of the polls of the future `i`, in order. -/
def results (events : List Event) (i : Nat) : List (Option Nat) := (events.filter fun e => e.id = i).map Event.result

/-- Every step keeps the type and behaviour of futures, and polls at most one. -/
theorem step_cases (s : St) (op : Op) : (step s op).events = s.events ∨
    ∃ i f, s.futs[i]? = some f ∧ f.alive = true ∧ step s op = poll s i f ∧ (op = .pollDyn i ∧ f.boxed = true ∨ (op = .pollValue i ∨ op = .pollRef i) ∧ f.boxed = false) := by
  cases op with
  | new => exact .inl rfl
  | move i =>
    rw [step]; split
    · split <;> exact .inl rfl
    · exact .inl rfl
  | box i =>
    rw [step]; split
    · split <;> exact .inl rfl
    · exact .inl rfl
  | pollValue i =>
    rw [step]; split
    · rename_i f hf
      split
      · rename_i h; exact .inr ⟨i, f, hf, h.1, rfl, .inr ⟨.inl rfl, by simpa using h.2⟩⟩
      · exact .inl rfl
    · exact .inl rfl
  | pollRef i =>
    rw [step]; split
    · rename_i f hf
      split
      · rename_i h; exact .inr ⟨i, f, hf, h.1, rfl, .inr ⟨.inr rfl, by simpa using h.2⟩⟩
      · exact .inl rfl
    · exact .inl rfl
  | pollDyn i =>
    rw [step]; split
    · rename_i f hf
      split
      · rename_i h; exact .inr ⟨i, f, hf, h.1, rfl, .inl ⟨rfl, h.2⟩⟩
      · exact .inl rfl
    · exact .inl rfl
  | swap i j =>
    rw [step]; split
    · split <;> exact .inl rfl
    · exact .inl rfl
  | drop i =>
    rw [step]; split
    · split <;> exact .inl rfl
    · exact .inl rfl

theorem set_same {fs : List Fut} {i j : Nat} {f g h : Fut} (hi : fs[i]? = some f) (hb : g.beh = f.beh) (ht : g.ty = f.ty) (hj : fs[j]? = some h) :
    ∃ x, (fs.set i g)[j]? = some x ∧ x.beh = h.beh ∧ x.ty = h.ty := by
  rw [List.getElem?_set]
  split
  · rename_i e; subst e
    rw [hi] at hj
    obtain rfl := Option.some.inj hj
    exact ⟨g, by rw [if_pos (List.getElem?_eq_some_iff.1 hi).1], hb, ht⟩
  · exact ⟨h, hj, rfl, rfl⟩

/-- Futures keep their type and behaviour. -/
theorem beh_step {s : St} {op : Op} {j : Nat} {f : Fut} (h : s.futs[j]? = some f) : ∃ g, (step s op).futs[j]? = some g ∧ g.beh = f.beh ∧ g.ty = f.ty := by
  cases op with
  | new => exact ⟨f, by rw [step]; dsimp only; rw [List.getElem?_append_left (List.getElem?_eq_some_iff.1 h).1]; exact h, rfl, rfl⟩
  | move i =>
    rw [step]; split
    · rename_i g hg
      split
      · exact set_same hg (g := { g with place := s.next }) rfl rfl h
      · exact ⟨f, h, rfl, rfl⟩
    · exact ⟨f, h, rfl, rfl⟩
  | box i =>
    rw [step]; split
    · rename_i g hg
      split
      · exact set_same hg (g := { g with place := s.next, boxed := true }) rfl rfl h
      · exact ⟨f, h, rfl, rfl⟩
    · exact ⟨f, h, rfl, rfl⟩
  | pollValue i => rw [step]; split <;> (try split) <;> exact ⟨f, h, rfl, rfl⟩
  | pollRef i => rw [step]; split <;> (try split) <;> exact ⟨f, h, rfl, rfl⟩
  | pollDyn i => rw [step]; split <;> (try split) <;> exact ⟨f, h, rfl, rfl⟩
  | swap i k =>
    rw [step]; split
    · rename_i a b ha hb
      split
      · rename_i hc
        obtain ⟨x, hx, hxb, hxt⟩ := set_same ha (g := { a with place := b.place, boxed := b.boxed }) rfl rfl h
        have hb' : (s.futs.set i { a with place := b.place, boxed := b.boxed })[k]? = some b := by rw [List.getElem?_set_ne hc.2.2.2]; exact hb
        obtain ⟨y, hy, hyb, hyt⟩ := set_same hb' (g := { b with place := a.place, boxed := a.boxed }) rfl rfl hx
        exact ⟨y, hy, hyb.trans hxb, hyt.trans hxt⟩
      · exact ⟨f, h, rfl, rfl⟩
    · exact ⟨f, h, rfl, rfl⟩
  | drop i =>
    rw [step]; split
    · rename_i g hg
      split
      · exact set_same hg (g := { g with alive := false }) rfl rfl h
      · exact ⟨f, h, rfl, rfl⟩
    · exact ⟨f, h, rfl, rfl⟩

/-- Futures come from the step or from before. -/
theorem futs_back {s : St} {op : Op} {j : Nat} {g : Fut} (h : (step s op).futs[j]? = some g) : (∃ f, s.futs[j]? = some f) ∨
    (s.futs[j]? = none ∧ j = s.futs.length ∧ ∃ ty beh, op = .new ty beh ∧ g = ⟨ty, beh, s.next, false, true⟩) := by
  cases e : s.futs[j]? with
  | some f => exact .inl ⟨f, rfl⟩
  | none =>
    have hl : s.futs.length ≤ j := List.getElem?_eq_none_iff.1 e
    cases op with
    | new ty beh =>
      rw [step] at h
      dsimp only at h
      rw [List.getElem?_append_right hl] at h
      cases e' : j - s.futs.length with
      | zero =>
        rw [e'] at h
        simp only [List.getElem?_cons_zero, Option.some.injEq] at h
        exact .inr ⟨rfl, by omega, ty, beh, rfl, h.symm⟩
      | succ n => rw [e'] at h; simp at h
    | swap i k =>
      have : (step s (.swap i k)).futs.length ≤ j := by rw [step]; split <;> (try split) <;> simp [hl]
      rw [List.getElem?_eq_none this] at h; cases h
    | move i =>
      have : (step s (.move i)).futs.length ≤ j := by rw [step]; split <;> (try split) <;> simp [hl]
      rw [List.getElem?_eq_none this] at h; cases h
    | box i =>
      have : (step s (.box i)).futs.length ≤ j := by rw [step]; split <;> (try split) <;> simp [hl]
      rw [List.getElem?_eq_none this] at h; cases h
    | drop i =>
      have : (step s (.drop i)).futs.length ≤ j := by rw [step]; split <;> (try split) <;> simp [hl]
      rw [List.getElem?_eq_none this] at h; cases h
    | pollValue i =>
      have : (step s (.pollValue i)).futs.length ≤ j := by rw [step]; split <;> (try split) <;> simp [hl, poll]
      rw [List.getElem?_eq_none this] at h; cases h
    | pollRef i =>
      have : (step s (.pollRef i)).futs.length ≤ j := by rw [step]; split <;> (try split) <;> simp [hl, poll]
      rw [List.getElem?_eq_none this] at h; cases h
    | pollDyn i =>
      have : (step s (.pollDyn i)).futs.length ≤ j := by rw [step]; split <;> (try split) <;> simp [hl, poll]
      rw [List.getElem?_eq_none this] at h; cases h

/-- Polls that happened have been of futures, and gave what the futures give. -/
structure Res (s : St) : Prop where
  known : ∀ e ∈ s.events, e.id < s.futs.length
  results : ∀ (i : Nat) (f : Fut), s.futs[i]? = some f → results s.events i = (List.range (polls s.events i)).map f.beh

theorem res_step {s : St} (h : Res s) (op : Op) : Res (step s op) := by
  have hlen : s.futs.length ≤ (step s op).futs.length := by
    cases op <;> rw [step] <;> (try split) <;> (try split) <;> simp [poll]
  have hnone : ∀ {i : Nat}, s.futs.length ≤ i → s.events.filter (fun e => e.id = i) = [] := by
    intro i hi
    rw [List.filter_eq_nil_iff]
    intro e he hid
    have := h.known e he
    simp only [decide_eq_true_eq] at hid
    omega
  rcases step_cases s op with e | ⟨i, f, hf, -, e, -⟩
  · refine ⟨fun ev he => ?_, fun j g hg => ?_⟩
    · rw [e] at he; exact Nat.lt_of_lt_of_le (h.known ev he) hlen
    · rw [e]
      rcases futs_back hg with ⟨f, hf⟩ | ⟨-, rfl, -⟩
      · obtain ⟨g', hg', hb, -⟩ := beh_step (op := op) hf
        rw [hg] at hg'
        obtain rfl := Option.some.inj hg'
        rw [hb]
        exact h.results j f hf
      · rw [results, polls, hnone (Nat.le_refl _)]; rfl
  · have hi := (List.getElem?_eq_some_iff.1 hf).1
    refine ⟨fun ev he => ?_, fun j g hg => ?_⟩
    · rw [e] at he ⊢
      rw [poll] at he ⊢
      rcases List.mem_append.1 he with he | he
      · exact h.known ev he
      · rw [List.mem_singleton] at he; subst he; exact hi
    · rw [e] at hg ⊢
      rw [poll] at hg ⊢
      dsimp only at hg ⊢
      have hr := h.results j g hg
      have hp : ∀ (r : Option Nat), polls (s.events ++ [⟨i, f.place, r⟩]) j = polls s.events j + if i = j then 1 else 0 := by
        intro r
        rw [polls, polls, List.filter_append, List.length_append]
        by_cases hij : i = j <;> simp [hij]
      have hq : ∀ (r : Option Nat), results (s.events ++ [⟨i, f.place, r⟩]) j = results s.events j ++ if i = j then [r] else [] := by
        intro r
        rw [results, results, List.filter_append, List.map_append]
        by_cases hij : i = j <;> simp [hij]
      rw [hp, hq, hr]
      by_cases hij : i = j
      · subst hij
        rw [hf] at hg
        obtain rfl := Option.some.inj hg
        rw [if_pos rfl, if_pos rfl, List.range_succ, List.map_append]; rfl
      · rw [if_neg hij, if_neg hij, List.append_nil, Nat.add_zero]

theorem res_run (ops : List Op) : ∀ {s : St}, Res s → Res (run s ops) := by
  induction ops with
  | nil => intro s h; exact h
  | cons op ops ih => intro s h; exact ih (res_step h op)

theorem res_new : Res St.new := by
  refine ⟨fun e h => ?_, fun i f h => ?_⟩ <;> simp [St.new] at h

/-- However a future is polled, by value, through a reference or as a trait object, moved in between or not, the n-th poll gives what the n-th poll of the
future gives. -/
theorem C79_results (ops : List Op) (i : Nat) (f : Fut) (h : (run St.new ops).futs[i]? = some f) :
    results (run St.new ops).events i = (List.range (polls (run St.new ops).events i)).map f.beh := (res_run ops res_new).results i f h

/-- The only use of futures that are not `Unpin` is in objects, and they are not exchanged there. -/
def Careful (unpin : Nat → Bool) : St → List Op → Prop
  | _, [] => True
  | s, op :: ops => (∀ i f, s.futs[i]? = some f → (op = .pollValue i ∨ op = .pollRef i ∨ (∃ j, op = .swap i j)) → unpin f.ty = true) ∧
      Careful unpin (step s op) ops

/-- The contract of `Pin`: a future that is not `Unpin` stays where it was polled. -/
def Pinned (unpin : Nat → Bool) (s : St) : Prop :=
  ∀ (i : Nat) (f : Fut), s.futs[i]? = some f → unpin f.ty = false → (∀ a ∈ s.events, ∀ b ∈ s.events, a.id = i → b.id = i → a.place = b.place) ∧
    (f.alive = true → ∀ a ∈ s.events, a.id = i → a.place = f.place)

structure Inv (unpin : Nat → Bool) (s : St) : Prop where
  pinned : Pinned unpin s
  known : ∀ e ∈ s.events, e.id < s.futs.length
  unboxed : ∀ (i : Nat) (f : Fut), s.futs[i]? = some f → unpin f.ty = false → f.boxed = false → ∀ a ∈ s.events, a.id ≠ i

/-- A future's entry changes, in a way that keeps the invariant for it. -/
theorem inv_set {unpin : Nat → Bool} {s : St} (h : Inv unpin s) {i n : Nat} {f g : Fut} (hf : s.futs[i]? = some f) (ht : g.ty = f.ty)
    (hp : unpin f.ty = false → (g.alive = true → f.alive = true ∧ (g.place = f.place ∨ f.boxed = false)) ∧ (g.boxed = false → f.boxed = false)) :
    Inv unpin ⟨s.futs.set i g, n, s.events⟩ := by
  have back : ∀ {j : Nat} {x : Fut}, (s.futs.set i g)[j]? = some x → (j = i ∧ x = g) ∨ (j ≠ i ∧ s.futs[j]? = some x) := by
    intro j x hx
    rw [List.getElem?_set] at hx
    split at hx
    · rename_i e; subst e
      split at hx
      · exact .inl ⟨rfl, (Option.some.inj hx).symm⟩
      · cases hx
    · rename_i e; exact .inr ⟨fun e' => e e'.symm, hx⟩
  refine ⟨?_, ?_, ?_⟩
  · intro j x hx hu
    dsimp only at hx ⊢
    rcases back hx with ⟨rfl, rfl⟩ | ⟨-, hx⟩
    · rw [ht] at hu
      obtain ⟨h1, h2⟩ := h.pinned j f hf hu
      refine ⟨h1, fun ha a hm hid => ?_⟩
      obtain ⟨h3, h4⟩ := (hp hu).1 ha
      rcases h4 with h4 | h4
      · rw [h4]; exact h2 h3 a hm hid
      · exact absurd hid (h.unboxed j f hf hu h4 a hm)
    · exact h.pinned j x hx hu
  · intro e he
    dsimp only at he ⊢
    rw [List.length_set]
    exact h.known e he
  · intro j x hx hu hb
    dsimp only at hx ⊢
    rcases back hx with ⟨rfl, rfl⟩ | ⟨-, hx⟩
    · rw [ht] at hu
      exact h.unboxed j f hf hu ((hp hu).2 hb)
    · exact h.unboxed j x hx hu hb

theorem inv_poll {unpin : Nat → Bool} {s : St} (h : Inv unpin s) {i : Nat} {f : Fut} (hf : s.futs[i]? = some f) (ha : f.alive = true)
    (hb : unpin f.ty = false → f.boxed = true) : Inv unpin (poll s i f) := by
  rw [poll]
  refine ⟨?_, ?_, ?_⟩
  · intro j x hx hu
    dsimp only at hx ⊢
    have key : ∀ a ∈ s.events ++ [(⟨i, f.place, f.beh (polls s.events i)⟩ : Event)], a.id = j → a ∈ s.events ∨ (i = j ∧ a.place = f.place) := by
      intro a hm hid
      rcases List.mem_append.1 hm with hm | hm
      · exact .inl hm
      · rw [List.mem_singleton] at hm; subst hm; exact .inr ⟨hid, rfl⟩
    obtain ⟨h1, h2⟩ := h.pinned j x hx hu
    by_cases hij : i = j
    · subst hij
      rw [hf] at hx
      obtain rfl := Option.some.inj hx
      have all : ∀ a ∈ s.events ++ [(⟨i, f.place, f.beh (polls s.events i)⟩ : Event)], a.id = i → a.place = f.place := by
        intro a hm hid
        rcases key a hm hid with hm | ⟨-, e⟩
        · exact h2 ha a hm hid
        · exact e
      exact ⟨fun a hm b hm' hia hib => by rw [all a hm hia, all b hm' hib], fun _ => all⟩
    · have old : ∀ a ∈ s.events ++ [(⟨i, f.place, f.beh (polls s.events i)⟩ : Event)], a.id = j → a ∈ s.events := by
        intro a hm hid
        rcases key a hm hid with hm | ⟨e, -⟩
        · exact hm
        · exact absurd e hij
      exact ⟨fun a hm b hm' hia hib => h1 a (old a hm hia) b (old b hm' hib) hia hib, fun hal a hm hid => h2 hal a (old a hm hid) hid⟩
  · intro e he
    dsimp only at he ⊢
    rcases List.mem_append.1 he with he | he
    · exact h.known e he
    · rw [List.mem_singleton] at he; subst he; exact (List.getElem?_eq_some_iff.1 hf).1
  · intro j x hx hu hbx a hm hid
    dsimp only at hx hm
    rcases List.mem_append.1 hm with hm | hm
    · exact h.unboxed j x hx hu hbx a hm hid
    · rw [List.mem_singleton] at hm; subst hm
      dsimp only at hid; subst hid
      rw [hf] at hx
      obtain rfl := Option.some.inj hx
      rw [hb hu] at hbx
      exact absurd hbx (by decide)

theorem inv_step {unpin : Nat → Bool} {s : St} (h : Inv unpin s) (op : Op)
    (hc : ∀ i f, s.futs[i]? = some f → (op = .pollValue i ∨ op = .pollRef i ∨ (∃ j, op = .swap i j)) → unpin f.ty = true) : Inv unpin (step s op) := by
  cases op with
  | new ty beh =>
    have back : ∀ {j : Nat} {x : Fut}, (step s (.new ty beh)).futs[j]? = some x → s.futs[j]? = some x ∨ j = s.futs.length := by
      intro j x hx
      rcases futs_back hx with ⟨f, hf⟩ | ⟨-, hj, -⟩
      · rw [step] at hx
        dsimp only at hx
        rw [List.getElem?_append_left (List.getElem?_eq_some_iff.1 hf).1] at hx
        exact .inl hx
      · exact .inr hj
    have none_new : ∀ a ∈ s.events, a.id ≠ s.futs.length := fun a ha e => by have := h.known a ha; omega
    refine ⟨?_, ?_, ?_⟩
    · intro j x hx hu
      rcases back hx with hx | rfl
      · exact h.pinned j x hx hu
      · exact ⟨fun a ha b _ hid _ => absurd hid (none_new a ha), fun _ a ha hid => absurd hid (none_new a ha)⟩
    · intro e he
      have := h.known e he
      rw [step]; simp; omega
    · intro j x hx hu hb
      rcases back hx with hx | rfl
      · exact h.unboxed j x hx hu hb
      · exact none_new
  | move i =>
    rw [step]; split
    · rename_i f hf
      split
      · rename_i hb
        exact inv_set h hf rfl fun _ => ⟨fun _ => ⟨hb.1, .inr (by simpa using hb.2)⟩, fun x => x⟩
      · exact h
    · exact h
  | box i =>
    rw [step]; split
    · rename_i f hf
      split
      · rename_i hb
        exact inv_set h hf rfl fun _ => ⟨fun _ => ⟨hb.1, .inr (by simpa using hb.2)⟩, fun x => absurd x (by simp)⟩
      · exact h
    · exact h
  | pollValue i =>
    rw [step]; split
    · rename_i f hf
      split
      · rename_i hb
        exact inv_poll h hf hb.1 fun hu => by rw [hc i f hf (.inl rfl)] at hu; cases hu
      · exact h
    · exact h
  | pollRef i =>
    rw [step]; split
    · rename_i f hf
      split
      · rename_i hb
        exact inv_poll h hf hb.1 fun hu => by rw [hc i f hf (.inr (.inl rfl))] at hu; cases hu
      · exact h
    · exact h
  | pollDyn i =>
    rw [step]; split
    · rename_i f hf
      split
      · rename_i hb; exact inv_poll h hf hb.1 fun _ => hb.2
      · exact h
    · exact h
  | swap i j =>
    rw [step]; split
    · rename_i f g hf hg
      split
      · rename_i hb
        have hu := hc i f hf (.inr (.inr ⟨j, rfl⟩))
        have h1 := inv_set h (n := s.next) (g := { f with place := g.place, boxed := g.boxed }) hf rfl fun e => by rw [hu] at e; cases e
        have hg' : (s.futs.set i { f with place := g.place, boxed := g.boxed })[j]? = some g := by rw [List.getElem?_set_ne hb.2.2.2]; exact hg
        exact inv_set h1 (g := { g with place := f.place, boxed := f.boxed }) hg' rfl fun e => by rw [← hb.2.2.1, hu] at e; cases e
      · exact h
    · exact h
  | drop i =>
    rw [step]; split
    · rename_i f hf
      split
      · exact inv_set h hf rfl fun _ => ⟨fun e => absurd e (by simp), fun x => x⟩
      · exact h
    · exact h

/-- If the futures that are not `Unpin` are polled as objects that own them only, and are not reached by `stable_downcast_mut`, they stay where
they are from the first poll on: polling objects keeps the contract of `Pin`. -/
theorem C79_pinned_partial (unpin : Nat → Bool) (ops : List Op) (h : Careful unpin St.new ops) : Pinned unpin (run St.new ops) := by
  have key : ∀ (ops : List Op) {s : St}, Inv unpin s → Careful unpin s ops → Inv unpin (run s ops) := by
    intro ops
    induction ops with
    | nil => intro s h _; exact h
    | cons op ops ih => intro s h hc; exact ih (inv_step h op hc.1) hc.2
  exact (key ops ⟨fun _ _ hf => by simp [St.new] at hf, fun _ he => by simp [St.new] at he, fun _ _ hf => by simp [St.new] at hf⟩ h).pinned

/-! ### Places -/

structure Places (s : St) : Prop where
  lt : ∀ (i : Nat) (f : Fut), s.futs[i]? = some f → f.place < s.next
  inj : ∀ (i j : Nat) (f g : Fut), s.futs[i]? = some f → s.futs[j]? = some g → f.place = g.place → i = j

theorem set_back {fs : List Fut} {i j : Nat} {g x : Fut} (h : (fs.set i g)[j]? = some x) : (j = i ∧ x = g) ∨ (j ≠ i ∧ fs[j]? = some x) := by
  rw [List.getElem?_set] at h
  split at h
  · rename_i e; subst e
    split at h
    · exact .inl ⟨rfl, (Option.some.inj h).symm⟩
    · cases h
  · rename_i e; exact .inr ⟨fun e' => e e'.symm, h⟩

/-- A future gets a new place. -/
theorem places_fresh {s : St} (h : Places s) {i : Nat} {g : Fut} (hg : g.place = s.next) (ev : List Event) : Places ⟨s.futs.set i g, s.next + 1, ev⟩ := by
  refine ⟨fun j x hx => ?_, fun j k x y hx hy e => ?_⟩
  · dsimp only at hx ⊢
    rcases set_back hx with ⟨rfl, rfl⟩ | ⟨-, hx⟩
    · omega
    · have := h.lt j x hx; omega
  · dsimp only at hx hy
    rcases set_back hx with ⟨rfl, rfl⟩ | ⟨-, hx'⟩ <;> rcases set_back hy with ⟨rfl, rfl⟩ | ⟨-, hy'⟩
    · rfl
    · have := h.lt k y hy'; omega
    · have := h.lt j x hx'; omega
    · exact h.inj j k x y hx' hy' e

theorem places_step {s : St} (h : Places s) (op : Op) : Places (step s op) := by
  have hp : ∀ i f, Places (poll s i f) := fun i f => ⟨h.lt, h.inj⟩
  cases op with
  | new ty beh =>
    have back : ∀ {j : Nat} {x : Fut}, (s.futs ++ [⟨ty, beh, s.next, false, true⟩])[j]? = some x → s.futs[j]? = some x ∨ (j = s.futs.length ∧ x.place = s.next) := by
      intro j x hx
      by_cases hj : j < s.futs.length
      · rw [List.getElem?_append_left hj] at hx; exact .inl hx
      · rw [List.getElem?_append_right (by omega)] at hx
        cases e : j - s.futs.length with
        | zero => rw [e] at hx; simp at hx; subst hx; exact .inr ⟨by omega, rfl⟩
        | succ n => rw [e] at hx; simp at hx
    rw [step]
    refine ⟨fun j x hx => ?_, fun j k x y hx hy e => ?_⟩
    · dsimp only at hx ⊢
      rcases back hx with hx | ⟨-, e⟩
      · have := h.lt j x hx; omega
      · omega
    · dsimp only at hx hy
      rcases back hx with hx | ⟨hj, ej⟩ <;> rcases back hy with hy | ⟨hk, ek⟩
      · exact h.inj j k x y hx hy e
      · have := h.lt j x hx; omega
      · have := h.lt k y hy; omega
      · omega
  | move i =>
    rw [step]; split
    · split
      · exact places_fresh h rfl _
      · exact h
    · exact h
  | box i =>
    rw [step]; split
    · split
      · exact places_fresh h rfl _
      · exact h
    · exact h
  | pollValue i => rw [step]; split <;> (try split) <;> first | exact hp _ _ | exact h
  | pollRef i => rw [step]; split <;> (try split) <;> first | exact hp _ _ | exact h
  | pollDyn i => rw [step]; split <;> (try split) <;> first | exact hp _ _ | exact h
  | swap i j =>
    rw [step]; split
    · rename_i f g hf hg
      split
      · rename_i hc
        -- where each of the futures was before
        have back : ∀ {k : Nat} {x : Fut}, ((s.futs.set i { f with place := g.place, boxed := g.boxed }).set j { g with place := f.place, boxed := f.boxed })[k]? = some x →
            ∃ k' x', s.futs[k']? = some x' ∧ x'.place = x.place ∧ ((k = i ∧ k' = j) ∨ (k = j ∧ k' = i) ∨ (k ≠ i ∧ k ≠ j ∧ k' = k)) := by
          intro k x hx
          rcases set_back hx with ⟨rfl, rfl⟩ | ⟨hkj, hx⟩
          · exact ⟨i, f, hf, rfl, .inr (.inl ⟨rfl, rfl⟩)⟩
          · rcases set_back hx with ⟨rfl, rfl⟩ | ⟨hki, hx⟩
            · exact ⟨j, g, hg, rfl, .inl ⟨rfl, rfl⟩⟩
            · exact ⟨k, x, hx, rfl, .inr (.inr ⟨hki, hkj, rfl⟩)⟩
        refine ⟨fun k x hx => ?_, fun k l x y hx hy e => ?_⟩
        · obtain ⟨k', x', hx', e, -⟩ := back hx
          dsimp only; rw [← e]; exact h.lt k' x' hx'
        · obtain ⟨k', x', hx', e1, c1⟩ := back hx
          obtain ⟨l', y', hy', e2, c2⟩ := back hy
          have := h.inj k' l' x' y' hx' hy' (by rw [e1, e2, e])
          omega
      · exact h
    · exact h
  | drop i =>
    rw [step]; split
    · rename_i f hf
      split
      · refine ⟨fun k x hx => ?_, fun k l x y hx hy e => ?_⟩
        · rcases set_back hx with ⟨rfl, rfl⟩ | ⟨-, hx⟩
          · exact h.lt k f hf
          · exact h.lt k x hx
        · rcases set_back hx with ⟨rfl, rfl⟩ | ⟨-, hx'⟩ <;> rcases set_back hy with ⟨rfl, rfl⟩ | ⟨-, hy'⟩
          · rfl
          · exact h.inj k l f y hf hy' e
          · exact h.inj k l x f hx' hf e
          · exact h.inj k l x y hx' hy' e
      · exact h
    · exact h

/-- Different futures are at different places, at all times. -/
theorem C79_places (ops : List Op) (i j : Nat) (f g : Fut) (hi : (run St.new ops).futs[i]? = some f) (hj : (run St.new ops).futs[j]? = some g)
    (h : f.place = g.place) : i = j := by
  have key : ∀ (ops : List Op) {s : St}, Places s → Places (run s ops) := by
    intro ops
    induction ops with
    | nil => intro s h; exact h
    | cons op ops ih => intro s h; exact ih (places_step h op)
  refine (key ops ⟨fun _ _ hf => ?_, fun _ _ _ _ hf => ?_⟩).inj i j f g hi hj h <;> simp [St.new] at hf

/-- A poll of a future that is alive is one of the future, where it is: by value or through a reference if a variable owns it, otherwise through its object. -/
theorem C79_polled (s : St) (i : Nat) (f : Fut) (hf : s.futs[i]? = some f) (ha : f.alive = true) (op : Op)
    (ho : if f.boxed then op = .pollDyn i else op = .pollValue i ∨ op = .pollRef i) :
    ∃ r, (step s op).events = s.events ++ [⟨i, f.place, r⟩] ∧ (step s op).futs = s.futs := by
  refine ⟨f.beh (polls s.events i), ?_⟩
  cases hb : f.boxed with
  | true => rw [hb] at ho; simp only [if_true] at ho; subst ho; simp [step, hf, ha, hb, poll]
  | false =>
    rw [hb] at ho
    simp only [Bool.false_eq_true, if_false] at ho
    rcases ho with rfl | rfl <;> simp [step, hf, ha, hb, poll]

/-- Of type 0, not `Unpin`: moved, boxed, polled, the object moved, polled again.  Of type 1, `Unpin`: polled, moved, polled. -/
def exOps (b : Nat → Option Nat) : List Op :=
  [.new 0 b, .new 1 b, .move 0, .box 0, .pollDyn 0, .move 0, .pollDyn 0, .pollValue 1, .move 1, .pollRef 1, .drop 0]
example (b : Nat → Option Nat) : Careful (fun t => t == 1) St.new (exOps b) ∧
    (run St.new (exOps b)).events = [⟨0, 3, b 0⟩, ⟨0, 3, b 1⟩, ⟨1, 1, b 0⟩, ⟨1, 4, b 1⟩] := by
  constructor
  · simp only [exOps, Careful, step, St.new, poll]
    simp
    refine ⟨?_, ?_⟩ <;> intro i f hi hf <;> subst hf <;> simp at hi <;> subst hi <;> rfl
  · simp [exOps, run, step, St.new, poll, polls]

/-- Refuted: stabby's `Future::poll` takes `&mut self` and is a safe method of every future: a future that is not `Unpin` is polled, moved, and polled again. -/
theorem C79_poll_refuted (unpin : Nat → Bool) (t : Nat) (h : unpin t = false) (b : Nat → Option Nat) (op : Nat → Op) (ho : op = .pollValue ∨ op = .pollRef) :
    (run St.new [.new t b, op 0, .move 0, op 0]).events = [⟨0, 0, b 0⟩, ⟨0, 1, b 1⟩] ∧ ¬ Pinned unpin (run St.new [.new t b, op 0, .move 0, op 0]) := by
  have e : (run St.new [.new t b, op 0, .move 0, op 0]) = ⟨[⟨t, b, 1, false, true⟩], 2, [⟨0, 0, b 0⟩, ⟨0, 1, b 1⟩]⟩ := by
    rcases ho with rfl | rfl <;> simp [run, step, St.new, poll, polls]
  rw [e]
  refine ⟨rfl, fun hp => ?_⟩
  have := (hp 0 _ rfl h).1 _ (List.mem_cons_self ..) _ (List.mem_cons_of_mem _ (List.mem_cons_self ..)) rfl rfl
  simp at this

/-- Refuted: with `Any` among its traits, an object gives out `&mut` to its future: after a poll, `mem::swap` moves it. -/
theorem C79_downcast_refuted (unpin : Nat → Bool) (t : Nat) (h : unpin t = false) (b c : Nat → Option Nat) :
    ¬ Pinned unpin (run St.new [.new t b, .box 0, .pollDyn 0, .new t c, .swap 0 1]) := by
  have e : (run St.new [.new t b, .box 0, .pollDyn 0, .new t c, .swap 0 1]) = ⟨[⟨t, b, 2, false, true⟩, ⟨t, c, 1, true, true⟩], 3, [⟨0, 1, b 0⟩]⟩ := by
    simp [run, step, St.new, poll, polls]
  rw [e]
  intro hp
  have := (hp 0 _ rfl h).2 rfl _ (List.mem_cons_self ..) rfl
  simp at this

end Verif.Props.Pinned
