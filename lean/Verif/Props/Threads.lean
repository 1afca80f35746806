import Verif.Threads.Model

/-!
# C59: `Send` and `Sync` of containers are justified

A thread that was given something gets at parts of it through the API (`Reach`).  Parts that it owns must be `Send`, parts that it shares
must be `Sync`.
-/
namespace Verif.Props.Threads
open Verif.Threads

/-- What a thread may be given: the compiler checks `Send` of what it owns and `Sync` of what it shares. -/
def Granted (e : Env) : Mode × Ty → Prop
  | (.own, t) => t.send e = true
  | (.share, t) => t.sync e = true

/-- No part is a type that violates the property, and the allocators of boxes and the conversions behind `RefAs` are `Sync`. -/
def Honest (e : Env) : Ty → Prop
  | .leaf _ => True
  | .ref t | .refMut t | .slice t | .sliceMut t | .symbol t => Honest e t
  | .box t a | .refAs t a => Honest e t ∧ Honest e a ∧ a.sync e = true
  | .pair t a | .boxedSlice t a | .vec t a | .intoIter t a | .drain t a | .arc t a | .weak t a | .arcSlice t a | .weakSlice t a
  | .atomicArc t a | .btreeSet t a | .stableLike t a | .mutAs t a => Honest e t ∧ Honest e a
  | .result _ _ | .okGuard _ _ | .errGuard _ _ | .singleOrVec _ _ | .atomicBTreeSet _ | .checkedImport _ | .canariedImport _
  | .stableWaker _ | .waker _ => False

theorem step_granted {e : Env} {x y : Mode × Ty} (h : Step x y) (hh : Honest e x.2) (hg : Granted e x) : Honest e y.2 ∧ Granted e y := by
  obtain ⟨m, t⟩ := x
  cases m <;> cases h <;> simp_all [Granted, Honest, Ty.send, Ty.sync, Bool.and_eq_true]

/-- Everything that a thread reaches in something it was given is `Send` where it owns it and `Sync` where it shares it.  What is
missing: types made of `Result` (`C59_result_refuted`), `AtomicArcBTreeSet`, imports, wakers, `RefAs` and boxes whose allocator is not `Sync`
(refuted below). -/
theorem C59_justified_partial (e : Env) (m m' : Mode) (t : Ty) (i : Nat) (h : Honest e t) (hg : Granted e (m, t))
    (hr : Reach (m, t) (m', .leaf i)) : Granted e (m', .leaf i) := by
  suffices ∀ x y, Reach x y → Honest e x.2 → Granted e x → Granted e y from this _ _ hr h hg
  intro x y hr
  induction hr with
  | refl => exact fun _ h => h
  | step hs _ ih =>
    intro hh hg
    obtain ⟨h1, h2⟩ := step_granted hs hh hg
    exact ih h1 h2

/-- The containers that offer no more than what the traits say. -/
def Plain (e : Env) : Ty → Prop
  | .leaf _ => True
  | .ref t | .refMut t | .slice t | .sliceMut t | .symbol t => Plain e t
  | .pair t a => Plain e t ∧ Plain e a
  | .box t a | .boxedSlice t a | .vec t a | .arc t a | .weak t a | .arcSlice t a | .weakSlice t a | .atomicArc t a | .btreeSet t a =>
    Plain e t ∧ a.send e = true ∧ a.sync e = true
  | _ => False

/-- The traits are not withheld: if all that is reached is `Send` or `Sync` as needed, the container is, for allocators that are both. -/
theorem C59_complete_partial (e : Env) (t : Ty) (h : Plain e t) (m : Mode)
    (hr : ∀ m' i, Reach (m, t) (m', .leaf i) → Granted e (m', .leaf i)) : Granted e (m, t) := by
  induction t generalizing m with
  | leaf i => exact hr m i (.refl _)
  | ref t ih =>
    have := ih h .share fun m' i r => hr m' i (.step (.ref m t) r)
    cases m <;> simpa [Granted, Ty.send, Ty.sync] using this
  | refMut t ih =>
    have := ih h m fun m' i r => hr m' i (.step (.refMut m t) r)
    cases m <;> simpa [Granted, Ty.send, Ty.sync] using this
  | slice t ih =>
    have := ih h .share fun m' i r => hr m' i (.step (.slice m t) r)
    cases m <;> simpa [Granted, Ty.send, Ty.sync] using this
  | sliceMut t ih =>
    have := ih h m fun m' i r => hr m' i (.step (.sliceMut m t) r)
    cases m <;> simpa [Granted, Ty.send, Ty.sync] using this
  | symbol t ih =>
    have := ih h m fun m' i r => hr m' i (.step (.symbol m t) r)
    cases m <;> simpa [Granted, Ty.send, Ty.sync] using this
  | pair a b iha ihb =>
    have h1 := iha h.1 m fun m' i r => hr m' i (.step (.pairL m a b) r)
    have h2 := ihb h.2 m fun m' i r => hr m' i (.step (.pairR m a b) r)
    cases m <;> simp_all [Granted, Ty.send, Ty.sync]
  | box t a iht _ =>
    have h1 := iht h.1 m fun m' i r => hr m' i (.step (.box m t a) r)
    have ha := h.2
    cases m <;> simp_all [Granted, Ty.send, Ty.sync]
  | boxedSlice t a iht _ =>
    have h1 := iht h.1 m fun m' i r => hr m' i (.step (.boxedSlice m t a) r)
    have ha := h.2
    cases m <;> simp_all [Granted, Ty.send, Ty.sync]
  | vec t a iht _ =>
    have h1 := iht h.1 m fun m' i r => hr m' i (.step (.vec m t a) r)
    have ha := h.2
    cases m <;> simp_all [Granted, Ty.send, Ty.sync]
  | arc t a iht _ =>
    have hs := iht h.1 .share fun m' i r => hr m' i (.step (.arc m t a) r)
    have ho := iht h.1 .own fun m' i r => hr m' i (by
      cases m with
      | own => exact .step (.arcOwn t a) r
      | share => exact .step (.arcClone t a) (.step (.arcOwn t a) r))
    have ha := h.2
    cases m <;> simp_all [Granted, Ty.send, Ty.sync]
  | weak t a iht _ =>
    have hs := iht h.1 .share fun m' i r => hr m' i (.step (.weak m t a) (.step (.arc _ t a) r))
    have ho := iht h.1 .own fun m' i r => hr m' i (.step (.weak m t a) (.step (.arcOwn t a) r))
    have ha := h.2
    cases m <;> simp_all [Granted, Ty.send, Ty.sync]
  | arcSlice t a iht _ =>
    have hs := iht h.1 .share fun m' i r => hr m' i (.step (.arcSlice m t a) r)
    have ho := iht h.1 .own fun m' i r => hr m' i (by
      cases m with
      | own => exact .step (.arcSliceOwn t a) r
      | share => exact .step (.arcSliceClone t a) (.step (.arcSliceOwn t a) r))
    have ha := h.2
    cases m <;> simp_all [Granted, Ty.send, Ty.sync]
  | weakSlice t a iht _ =>
    have hs := iht h.1 .share fun m' i r => hr m' i (.step (.weakSlice m t a) (.step (.arcSlice _ t a) r))
    have ho := iht h.1 .own fun m' i r => hr m' i (.step (.weakSlice m t a) (.step (.arcSliceOwn t a) r))
    have ha := h.2
    cases m <;> simp_all [Granted, Ty.send, Ty.sync]
  | atomicArc t a iht _ =>
    have hs := iht h.1 .share fun m' i r => hr m' i (.step (.atomicArc m t a) (.step (.arc _ t a) r))
    have ho := iht h.1 .own fun m' i r => hr m' i (.step (.atomicArc m t a) (.step (.arcOwn t a) r))
    have ha := h.2
    cases m <;> simp_all [Granted, Ty.send, Ty.sync]
  | btreeSet t a iht _ =>
    have hs := iht h.1 .share fun m' i r => hr m' i (.step (.btreeSet m t a) r)
    have ho := iht h.1 .own fun m' i r => hr m' i (by
      cases m with
      | own => exact .step (.btreeSetOwn t a) r
      | share => exact .step (.btreeSetClone t a) (.step (.btreeSetOwn t a) r))
    have ha := h.2
    cases m <;> simp_all [Granted, Ty.send, Ty.sync]
  | _ => exact h.elim

/-- Leaf 0 is `Send` and not `Sync` (like `Cell`), leaf 1 is both (like an allocator). -/
def exEnv : Env := ⟨fun _ => true, fun i => i != 0⟩

/-- A vector of boxed cells may be given to a thread, and the thread gets at the cells; an `Arc` of a cell may not. -/
example : Honest exEnv (.vec (.box (.leaf 0) (.leaf 1)) (.leaf 1)) ∧ Plain exEnv (.vec (.box (.leaf 0) (.leaf 1)) (.leaf 1)) ∧
    Granted exEnv (.own, .vec (.box (.leaf 0) (.leaf 1)) (.leaf 1)) ∧ Reach (.own, .vec (.box (.leaf 0) (.leaf 1)) (.leaf 1)) (.own, .leaf 0) ∧
    ¬ Granted exEnv (.own, .arc (.leaf 0) (.leaf 1)) ∧ Reach (.own, .arc (.leaf 0) (.leaf 1)) (.share, .leaf 0) ∧
    ¬ Granted exEnv (.share, .vec (.leaf 0) (.leaf 1)) := by
  refine ⟨by simp [Honest, exEnv, Ty.sync], by simp [Plain, exEnv, Ty.sync, Ty.send], by simp [Granted, exEnv, Ty.send],
    .step (.vec _ _ _) (.step (.box _ _ _) (.refl _)), by simp [Granted, exEnv, Ty.send, Ty.sync], .step (.arc _ _ _) (.refl _),
    by simp [Granted, exEnv, Ty.sync]⟩

/-- `Result`, hence `Option` and every `repr(stabby)` enum, is `Send` and `Sync` whatever it holds, and so are its guards and
`SingleOrVec`: a thread gets at any leaf. -/
theorem C59_result_refuted (e : Env) (m : Mode) (i : Nat) (u : Ty) :
    ∀ t ∈ [Ty.result (.leaf i) u, .result u (.leaf i), .okGuard (.leaf i) u, .errGuard u (.leaf i), .singleOrVec (.leaf i) u],
      Granted e (m, t) ∧ Reach (m, t) (m, .leaf i) := by
  intro t ht
  simp only [List.mem_cons, List.not_mem_nil, or_false] at ht
  rcases ht with rfl | rfl | rfl | rfl | rfl
  · exact ⟨by cases m <;> simp [Granted, Ty.send, Ty.sync], .step (.resultOk ..) (.refl _)⟩
  · exact ⟨by cases m <;> simp [Granted, Ty.send, Ty.sync], .step (.resultErr ..) (.refl _)⟩
  · exact ⟨by cases m <;> simp [Granted, Ty.send, Ty.sync], .step (.okGuard ..) (.refl _)⟩
  · exact ⟨by cases m <;> simp [Granted, Ty.send, Ty.sync], .step (.errGuard ..) (.refl _)⟩
  · exact ⟨by cases m <;> simp [Granted, Ty.send, Ty.sync], .step (.singleOrVec ..) (.refl _)⟩

/-- `AtomicArcBTreeSet` is `Send` and `Sync` whatever it holds; the values are shared with other threads. -/
theorem C59_atomic_btree_refuted (e : Env) (m : Mode) (i : Nat) :
    Granted e (m, .atomicBTreeSet (.leaf i)) ∧ Reach (m, .atomicBTreeSet (.leaf i)) (.share, .leaf i) ∧
    Reach (m, .atomicBTreeSet (.leaf i)) (.own, .leaf i) :=
  ⟨by cases m <;> simp [Granted, Ty.send, Ty.sync], .step (.atomicBTreeSet ..) (.refl _), .step (.atomicBTreeSetOwn ..) (.refl _)⟩

/-- Imports are `Send` and `Sync` whatever they hold, and can be built in safe code of values that are not functions. -/
theorem C59_import_refuted (e : Env) (m : Mode) (i : Nat) :
    Granted e (m, .checkedImport (.leaf i)) ∧ Reach (m, .checkedImport (.leaf i)) (.share, .leaf i) ∧
    Granted e (m, .canariedImport (.leaf i)) ∧ Reach (m, .canariedImport (.leaf i)) (.share, .leaf i) :=
  ⟨by cases m <;> simp [Granted, Ty.send, Ty.sync], .step (.checkedImport ..) (.refl _),
    by cases m <;> simp [Granted, Ty.send, Ty.sync], .step (.canariedImport ..) (.refl _)⟩

/-- Wakers are `Send` and `Sync`, and clones of those that stabby hands out own an allocator of any type: it ends up in another thread. -/
theorem C59_waker_refuted (e : Env) (m : Mode) (i : Nat) :
    Granted e (m, .stableWaker (.leaf i)) ∧ Granted e (m, .waker (.leaf i)) ∧ Reach (m, .stableWaker (.leaf i)) (.own, .waker (.leaf i)) ∧
    Reach (m, .waker (.leaf i)) (.own, .leaf i) :=
  ⟨by cases m <;> simp [Granted, Ty.send, Ty.sync], by cases m <;> simp [Granted, Ty.send, Ty.sync], .step (.stableWaker ..) (.refl _),
    .step (.wakerClone ..) (.step (.waker _) (.refl _))⟩

/-- A box of a `Sync` value is `Sync` whatever its allocator is, but cloning the box uses the allocator of the shared box. -/
theorem C59_box_allocator_refuted (e : Env) (i j : Nat) (h : e.sync i = true) :
    Granted e (.share, .box (.leaf i) (.leaf j)) ∧ Reach (.share, .box (.leaf i) (.leaf j)) (.share, .leaf j) :=
  ⟨by simp [Granted, Ty.sync, h], .step (.boxClone ..) (.refl _)⟩

/-- A guard may be sent to another thread if its view is `Send`, but guards of one value share what they view. -/
theorem C59_ref_as_refuted (e : Env) (i j : Nat) (h : e.sync i = true) (h' : e.send j = true) :
    Granted e (.own, .refAs (.leaf i) (.leaf j)) ∧ Reach (.own, .refAs (.leaf i) (.leaf j)) (.share, .leaf j) :=
  ⟨by simp [Granted, Ty.send, Ty.sync, h, h'], .step (.refAs ..) (.refl _)⟩

end Verif.Props.Threads
