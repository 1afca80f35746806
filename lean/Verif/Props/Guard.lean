import Verif.Guard.Model
/-!
# C51: guards of temporary conversions

`Holds v rest w` says that the live resources are those that `v` owns and the `rest`, each once: nothing is owned twice, nothing that is
owned is dead, nothing leaks.  `Fair` functions keep this, as functions written in safe Rust do.
-/
namespace Verif.Props.Guard
open Verif.Guard

variable {D E : Type}

/-- The live resources are exactly those of the value and the rest. -/
def Holds (v : Val D) (rest : List Nat) (w : World) : Prop := w.live.Nodup ∧ w.live.Perm (v.owns ++ rest)

/-- A conversion in safe Rust: it consumes a value, and produces one or, on a panic, drops it; it does not touch the rest. -/
def FairConv (c : Conv D E) : Prop := ∀ v rest w, Holds v rest w →
  (∀ r ∈ rest, (c v w).2.mem r = w.mem r) ∧
  (match (c v w).1 with
    | some v' => Holds v' rest (c v w).2
    | none => (c v w).2.live.Nodup ∧ (c v w).2.live.Perm rest)

/-- A mutation in safe Rust. -/
def FairMut (f : Mutation E) : Prop := ∀ v rest w, Holds v rest w →
  (∀ r ∈ rest, (f v w).2.mem r = w.mem r) ∧ Holds (f v w).1 rest (f v w).2

/-- A conversion that never panics. -/
def Total (c : Conv D E) : Prop := ∀ v w, (c v w).1.isSome = true

/-- What `Holds` is good for: the value is usable, and dropping it leaves the rest, so that it cannot be dropped again. -/
theorem holds_drop {v : Val D} {rest : List Nat} {w : World} (h : Holds v rest w) :
    usable v w ∧ ∃ w', drop v w = some w' ∧ w'.live.Nodup ∧ w'.live.Perm rest ∧ (v.owns ≠ [] → drop v w' = none) := by
  obtain ⟨hn, hp⟩ := h
  have hnd := hp.nodup_iff.mp hn
  rw [List.nodup_append] at hnd
  have hu : usable v w := fun r hr => hp.mem_iff.mpr (List.mem_append_left _ hr)
  refine ⟨hu, { w with live := w.live.filter (fun r => decide (r ∉ v.owns)) }, ?_, hn.sublist List.filter_sublist, ?_, ?_⟩
  · unfold drop
    rw [if_pos]
    refine ⟨?_, hnd.1⟩
    rw [List.all_eq_true]
    exact fun r hr => decide_eq_true (hu r hr)
  · refine (hp.filter _).trans ?_
    rw [List.filter_append]
    have h1 : v.owns.filter (fun r => decide (r ∉ v.owns)) = [] := by
      rw [List.filter_eq_nil_iff]; intro r hr; simp [hr]
    have h2 : rest.filter (fun r => decide (r ∉ v.owns)) = rest := by
      rw [List.filter_eq_self]
      intro r hr
      exact decide_eq_true (fun hm => hnd.2.2 r hm r hr rfl)
    rw [h1, h2]; exact List.Perm.refl _
  · intro hne
    unfold drop
    rw [if_neg]
    rintro ⟨ha, _⟩
    obtain ⟨r, l, he⟩ := List.exists_cons_of_ne_nil hne
    rw [List.all_eq_true] at ha
    have := ha r (by rw [he]; exact List.mem_cons_self)
    simp [he] at this

theorem fold_fair {fs : List (Mutation E)} (hf : ∀ f ∈ fs, FairMut f) {v : Val E} {rest : List Nat} {w : World} (h : Holds v rest w) :
    Holds (fs.foldl (fun s f => f s.1 s.2) (v, w)).1 rest (fs.foldl (fun s f => f s.1 s.2) (v, w)).2 ∧
      ∀ r ∈ rest, (fs.foldl (fun s f => f s.1 s.2) (v, w)).2.mem r = w.mem r := by
  induction fs generalizing v w with
  | nil => exact ⟨h, fun _ _ => rfl⟩
  | cons f fs ih =>
    obtain ⟨h1, h2⟩ := hf f List.mem_cons_self v rest w h
    obtain ⟨h3, h4⟩ := ih (fun g hg => hf g (List.mem_cons_of_mem _ hg)) h2
    exact ⟨h3, fun r hr => (h4 r hr).trans (h1 r hr)⟩

/-- Dropping a mutable guard stores the conversion of the final temporary: whatever the conversions and mutations do with resources
(release, allocate, exchange), the source afterwards is that value, owns exactly what is live besides the rest, and can be dropped
once.  What is missing: conversions that panic and guards that are forgotten. -/
theorem C51_mut_partial (into : Conv D E) (back : Conv E D) (uses : List (Mutation E)) (hi : FairConv into) (hb : FairConv back)
    (hu : ∀ f ∈ uses, FairMut f) (ti : Total into) (tb : Total back) (v : Val D) (rest : List Nat) (w : World) (h : Holds v rest w) :
    ∃ target, (into v w).1 = some target ∧
      (let final := uses.foldl (fun s f => f s.1 s.2) (target, (into v w).2)
       let r := withMut into back uses .drop v w
       (back final.1 final.2).1 = some r.1 ∧ r.2 = (back final.1 final.2).2) ∧
      Holds (withMut into back uses .drop v w).1 rest (withMut into back uses .drop v w).2 ∧
      ∀ r ∈ rest, (withMut into back uses .drop v w).2.mem r = w.mem r := by
  obtain ⟨m1, h1⟩ := hi v rest w h
  have t1 := ti v w
  cases e : (into v w).1 with
  | none => rw [e] at t1; cases t1
  | some target =>
    rw [e] at h1
    dsimp only at h1
    obtain ⟨h2, m2⟩ := fold_fair hu h1
    generalize hf : uses.foldl (fun s f => f s.1 s.2) (target, (into v w).2) = final at h2 m2
    obtain ⟨m3, h3⟩ := hb final.1 rest final.2 h2
    have t2 := tb final.1 final.2
    cases e2 : (back final.1 final.2).1 with
    | none => rw [e2] at t2; cases t2
    | some v' =>
      rw [e2] at h3
      have hr : withMut into back uses .drop v w = (v', (back final.1 final.2).2) := by
        simp only [withMut, mutAs, e, hf, mutDrop, e2]
      refine ⟨target, rfl, ?_, ?_, ?_⟩
      · dsimp only
        rw [hf, hr]
        exact ⟨e2, rfl⟩
      · rw [hr]; exact h3
      · rw [hr]; exact fun r hr => (m3 r hr).trans ((m2 r hr).trans (m1 r hr))

/-- An immutable guard leaves the source as it was, with everything it owns live and nothing leaked, if the conversion keeps exactly
the resources of the value and their contents, and nothing is changed through the guard. -/
theorem C51_ref_partial (into : Conv D E) (hi : FairConv into) (ti : Total into) (v : Val D) (rest : List Nat) (w : World)
    (h : Holds v rest w) (keep : ∀ t, (into v w).1 = some t → t.owns.Perm v.owns)
    (keepMem : ∀ r ∈ v.owns, (into v w).2.mem r = w.mem r) :
    (withRef into [] v w).1 = v ∧ Holds v rest (withRef into [] v w).2 ∧
      ∀ r ∈ w.live, (withRef into [] v w).2.mem r = w.mem r := by
  obtain ⟨m1, h1⟩ := hi v rest w h
  have t1 := ti v w
  cases e : (into v w).1 with
  | none => rw [e] at t1; cases t1
  | some target =>
    rw [e] at h1
    have hr : withRef into [] v w = (v, (into v w).2) := by simp only [withRef, refAs, e, List.foldl_nil]
    rw [hr]
    refine ⟨rfl, ⟨h1.1, h1.2.trans ((keep target e).append_right _)⟩, fun r hr => ?_⟩
    rcases List.mem_append.mp (h.2.mem_iff.mp hr) with hr | hr
    · exact keepMem r hr
    · exact m1 r hr

/-- And only then: the source is intact after the guard exactly if the converted value owns exactly what the source owns. -/
theorem C51_ref_iff (into : Conv D E) (hi : FairConv into) (v : Val D) (rest : List Nat) (w : World)
    (h : Holds v rest w) (t : Val E) (ht : (into v w).1 = some t) :
    Holds v rest (withRef into [] v w).2 ↔ t.owns.Perm v.owns := by
  obtain ⟨m1, h1⟩ := hi v rest w h
  rw [ht] at h1
  have hr : withRef into [] v w = (v, (into v w).2) := by simp only [withRef, refAs, ht, List.foldl_nil]
  rw [hr]
  constructor
  · intro hh
    exact (List.perm_append_right_iff rest).mp (h1.2.symm.trans hh.2)
  · intro hp
    exact ⟨h1.1, h1.2.trans (hp.append_right _)⟩

/-! ### What goes wrong -/

/-- A conversion that frees what it is given (`Box<T>` to `T`). -/
def unbox : Conv Unit Unit := fun v w => (some ⟨(), []⟩, { w with live := w.live.filter (fun r => decide (r ∉ v.owns)) })

/-- A resource that is not live. -/
def newRes (w : World) : Nat := w.live.foldr (fun a b => Nat.max a b) 0 + 1
theorem newRes_not_mem (w : World) : newRes w ∉ w.live := by
  have : ∀ l : List Nat, ∀ r ∈ l, r ≤ l.foldr (fun a b => Nat.max a b) 0 := by
    intro l
    induction l with
    | nil => exact nofun
    | cons a l ih =>
      intro r hr
      rw [List.foldr_cons]
      rcases List.mem_cons.mp hr with rfl | hr
      · exact Nat.le_max_left _ _
      · exact Nat.le_trans (ih r hr) (Nat.le_max_right _ _)
  intro h
  have := this w.live _ h
  unfold newRes at this
  omega

/-- A conversion that allocates (`T` to `Box<T>`). -/
def box : Conv Unit Unit := fun v w => (some ⟨(), newRes w :: v.owns⟩, { w with live := newRes w :: w.live })

theorem fair_unbox : FairConv unbox := by
  intro v rest w h
  obtain ⟨_, w', e, h1, h2, _⟩ := holds_drop h
  unfold drop at e
  split at e
  · cases e
    exact ⟨fun _ _ => rfl, h1, h2⟩
  · cases e

theorem fair_box : FairConv box := by
  intro v rest w h
  refine ⟨fun _ _ => rfl, ?_, ?_⟩
  · exact List.nodup_cons.mpr ⟨newRes_not_mem w, h.1⟩
  · exact (h.2.cons _)

/-- A world with one resource. -/
def w1 : World := ⟨[0], fun _ => 0⟩
/-- A value that owns it. -/
def v1 : Val Unit := ⟨(), [0]⟩

/-- `ref_as` with a conversion that frees: the source dangles after the guard was made, and dropping it is undefined behaviour. -/
theorem C51_ref_frees_refuted : ∃ (into : Conv Unit Unit) (v : Val Unit) (w : World), FairConv into ∧ Total into ∧ Holds v [] w ∧
    drop (withRef into [] v w).1 (withRef into [] v w).2 = none :=
  ⟨unbox, v1, w1, fair_unbox, fun _ _ => rfl, ⟨by decide, List.Perm.refl _⟩, by decide⟩

/-- `ref_as` with a conversion that allocates leaks. -/
theorem C51_ref_leaks_refuted : ∃ (into : Conv Unit Unit) (v : Val Unit) (w w' : World), FairConv into ∧ Total into ∧ Holds v [] w ∧
    drop (withRef into [] v w).1 (withRef into [] v w).2 = some w' ∧ w'.live ≠ [] :=
  ⟨box, v1, w1, _, fair_box, fun _ _ => rfl, ⟨by decide, List.Perm.refl _⟩, rfl, by decide⟩

/-- A conversion that keeps the resources and changes what is in them (sorting a vector). -/
def rewrite : Conv Unit Unit := fun v w => (some ⟨(), v.owns⟩, { w with mem := fun r => if r ∈ v.owns then 1 else w.mem r })

theorem fair_rewrite : FairConv rewrite := by
  intro v rest w h
  refine ⟨fun r hr => ?_, h.1, h.2⟩
  have hnd := h.2.nodup_iff.mp h.1
  rw [List.nodup_append] at hnd
  exact if_neg (fun hm => hnd.2.2 r hm r hr rfl)

/-- `ref_as` takes `&self`, but what the source owns may change. -/
theorem C51_ref_changes_refuted : ∃ (into : Conv Unit Unit) (v : Val Unit) (w : World), FairConv into ∧ Total into ∧ Holds v [] w ∧
    Holds v [] (withRef into [] v w).2 ∧ ∃ r ∈ v.owns, (withRef into [] v w).2.mem r ≠ w.mem r :=
  ⟨rewrite, v1, w1, fair_rewrite, fun _ _ => rfl, ⟨by decide, List.Perm.refl _⟩, ⟨by decide, List.Perm.refl _⟩, 0, by decide, by decide⟩

/-- A conversion that does nothing. -/
def rewrap : Conv Unit Unit := fun v w => (some v, w)
theorem fair_rewrap : FairConv rewrap := fun _ _ _ h => ⟨fun _ _ => rfl, h⟩

/-- Replacing what is owned (`*target = Box::new(..)`, or a vector that grows). -/
def replace : Mutation Unit := fun v w =>
  (⟨(), [newRes w]⟩, { w with live := newRes w :: w.live.filter (fun r => decide (r ∉ v.owns)) })

theorem fair_replace : FairMut replace := by
  intro v rest w h
  obtain ⟨_, w', e, h1, h2, _⟩ := holds_drop h
  unfold drop at e
  split at e
  · cases e
    refine ⟨fun _ _ => rfl, ?_, ?_⟩
    · exact List.nodup_cons.mpr ⟨fun hm => newRes_not_mem w (List.mem_filter.mp hm).1, h1⟩
    · exact h2.cons _
  · cases e

/-- Even with a conversion that does nothing: if something that is owned is replaced and the guard is forgotten (`mem::forget` is
safe), the source dangles. -/
theorem C51_forget_refuted : ∃ (into back : Conv Unit Unit) (uses : List (Mutation Unit)) (v : Val Unit) (w : World),
    FairConv into ∧ FairConv back ∧ (∀ f ∈ uses, FairMut f) ∧ Total into ∧ Total back ∧ Holds v [] w ∧
    drop (withMut into back uses .forget v w).1 (withMut into back uses .forget v w).2 = none :=
  ⟨rewrap, rewrap, [replace], v1, w1, fair_rewrap, fair_rewrap, by simpa using fair_replace, fun _ _ => rfl, fun _ _ => rfl,
    ⟨by decide, List.Perm.refl _⟩, by decide⟩

/-- The same through an immutable guard if there is interior mutability. -/
theorem C51_interior_refuted : ∃ (into : Conv Unit Unit) (uses : List (Mutation Unit)) (v : Val Unit) (w : World),
    FairConv into ∧ (∀ f ∈ uses, FairMut f) ∧ Total into ∧ Holds v [] w ∧
    drop (withRef into uses v w).1 (withRef into uses v w).2 = none :=
  ⟨rewrap, [replace], v1, w1, fair_rewrap, by simpa using fair_replace, fun _ _ => rfl, ⟨by decide, List.Perm.refl _⟩, by decide⟩

/-- A conversion that panics. -/
def panics : Conv Unit Unit := fun v w => (none, { w with live := w.live.filter (fun r => decide (r ∉ v.owns)) })
theorem fair_panics : FairConv panics := by
  intro v rest w h
  obtain ⟨_, w', e, h1, h2, _⟩ := holds_drop h
  unfold drop at e
  split at e
  · cases e
    exact ⟨fun _ _ => rfl, h1, h2⟩
  · cases e

/-- If a conversion panics, be it at the start or at the end of the guard, the source dangles: it is dropped twice. -/
theorem C51_panic_refuted :
    (∃ (into back : Conv Unit Unit) (v : Val Unit) (w : World), FairConv into ∧ FairConv back ∧ Total back ∧ Holds v [] w ∧
      drop (withMut into back [] .drop v w).1 (withMut into back [] .drop v w).2 = none ∧
      drop (withRef into [] v w).1 (withRef into [] v w).2 = none) ∧
    (∃ (into back : Conv Unit Unit) (v : Val Unit) (w : World), FairConv into ∧ FairConv back ∧ Total into ∧ Holds v [] w ∧
      drop (withMut into back [] .drop v w).1 (withMut into back [] .drop v w).2 = none) :=
  ⟨⟨panics, rewrap, v1, w1, fair_panics, fair_rewrap, fun _ _ => rfl, ⟨by decide, List.Perm.refl _⟩, by decide, by decide⟩,
   ⟨rewrap, panics, v1, w1, fair_rewrap, fair_panics, fun _ _ => rfl, ⟨by decide, List.Perm.refl _⟩, by decide⟩⟩

/-- What `C51_mut_partial` gives a user: after the guard the source can be dropped once, and then everything is freed. -/
theorem C51_mut_drop_partial (into : Conv D E) (back : Conv E D) (uses : List (Mutation E)) (hi : FairConv into) (hb : FairConv back)
    (hu : ∀ f ∈ uses, FairMut f) (ti : Total into) (tb : Total back) (v : Val D) (rest : List Nat) (w : World) (h : Holds v rest w) :
    let r := withMut into back uses .drop v w
    usable r.1 r.2 ∧ ∃ w', drop r.1 r.2 = some w' ∧ w'.live.Perm rest := by
  obtain ⟨_, _, _, h1, _⟩ := C51_mut_partial into back uses hi hb hu ti tb v rest w h
  obtain ⟨h2, w', h3, _, h4, _⟩ := holds_drop h1
  exact ⟨h2, w', h3, h4⟩

-- A conversion that frees, one that allocates, and a mutation that replaces: the hypotheses of `C51_mut_partial` hold.
example : FairConv unbox ∧ FairConv box ∧ (∀ f ∈ [replace], FairMut f) ∧ Total unbox ∧ Total box ∧ Holds v1 [7] ⟨[7, 0], fun _ => 0⟩ :=
  ⟨fair_unbox, fair_box, by simpa using fair_replace, fun _ _ => rfl, fun _ _ => rfl, by decide, by decide⟩
example : (withMut unbox box [replace] .drop v1 ⟨[7, 0], fun _ => 0⟩).1.owns = [9, 8] := by decide
-- A conversion that keeps resources and contents.
example : FairConv rewrap ∧ Total rewrap ∧ (∀ t, (rewrap v1 w1).1 = some t → t.owns.Perm v1.owns) ∧
    ∀ r ∈ v1.owns, (rewrap v1 w1).2.mem r = w1.mem r :=
  ⟨fair_rewrap, fun _ _ => rfl, fun t h => by cases h; exact List.Perm.refl _, fun _ _ => rfl⟩

end Verif.Props.Guard
