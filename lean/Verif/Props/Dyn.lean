import Verif.Dyn.Model

/-! Properties C42, C43, C44. -/
namespace Verif.Props.Dyn
open Verif.Dyn

variable {arity : Nat → Nat} {mem : Nat → Option Fn}

/-! ### C42 -/

/-- The traits of a trait object type, innermost (leftmost in `dyn A + B`) first. -/
def traits : Vt → List Nat
  | .drop => []
  | .send t => traits t
  | .sync t => traits t
  | .table h t => traits t ++ [h]

/-- The vtable of type `ty` is in memory at address `a`. -/
def Stored (arity : Nat → Nat) (mem : Nat → Option Fn) (a ty : Nat) (v : Vt) : Prop :=
  ∀ (i : Nat) (f : Fn), (slots arity ty v)[i]? = some f → mem (a + i) = some f

/-- A trait object for the value of type `ty` at address `p`, as `From` makes it (fatptr.rs:337-352, 362-372). -/
structure Built (arity : Nat → Nat) (mem : Nat → Option Fn) (ty p : Nat) (o : Obj) : Prop where
  ptr : o.ptr = p
  vtable : Stored arity mem o.vtable ty o.vty

theorem slots_length (ty : Nat) (v : Vt) : (slots arity ty v).length = size arity v := by
  induction v with
  | drop => rfl
  | send t ih => exact ih
  | sync t ih => exact ih
  | table h t ih => simp [slots, size, ih]

/-- A super-trait vtable is a prefix of the vtable. -/
theorem super_prefix (ty : Nat) {v w : Vt} (h : Super v w) : slots arity ty w <+: slots arity ty v := by
  cases h <;> simp [slots]

theorem Stored.super {a ty : Nat} {v w : Vt} (h : Stored arity mem a ty v) (hs : Super v w) : Stored arity mem a ty w := by
  intro i f hi
  obtain ⟨r, hr⟩ := super_prefix (arity := arity) ty hs
  apply h
  rw [← hr, List.getElem?_append_left]
  · exact hi
  · exact (List.getElem?_eq_some_iff.1 hi).1

theorem conv_stored {ty : Nat} {a b : Obj} (h : Conv a b) (ha : Stored arity mem a.vtable ty a.vty) :
    Stored arity mem b.vtable ty b.vty := by
  cases h with
  | super loc' v hs => exact ha.super hs
  | _ => exact ha

theorem convs_stored {ty : Nat} {a b : Obj} (h : Convs a b) (ha : Stored arity mem a.vtable ty a.vty) :
    Stored arity mem b.vtable ty b.vty := by
  induction h with
  | refl => exact ha
  | step b c _ hc ih => exact conv_stored hc ih

theorem tderef_slots {ty t off : Nat} {v : Vt} {p : Path} (h : tderef arity v p = some (t, off)) (i : Nat) (hi : i < arity t) :
    (slots arity ty v)[off + i]? = some (.method ty t i) := by
  induction v generalizing p with
  | drop => simp [tderef] at h
  | send v ih => exact ih h
  | sync v ih => exact ih h
  | table hd v ih =>
    cases p with
    | here =>
      simp only [tderef, Option.some.injEq, Prod.mk.injEq] at h
      obtain ⟨rfl, rfl⟩ := h
      simp only [slots]
      rw [List.getElem?_append_right (by rw [slots_length]; omega), slots_length, Nat.add_sub_cancel_left, List.getElem?_map,
        List.getElem?_range hi]
      rfl
    | tail p =>
      have := ih h
      simp only [slots]
      rw [List.getElem?_append_left (List.getElem?_eq_some_iff.1 this).1]
      exact this

theorem dropVt_slots (ty : Nat) (v : Vt) : (slots arity ty v)[dropVt v]? = some (.drop ty) := by
  induction v with
  | drop => rfl
  | send t ih => exact ih
  | sync t ih => exact ih
  | table h t ih =>
    simp only [slots, dropVt]
    rw [List.getElem?_append_left (List.getElem?_eq_some_iff.1 ih).1]
    exact ih

/-- For a trait object built from a value of type `ty`, after any number of upcasts, clones, borrows and moves: every method that can be
called is the one of `ty`, and so is the drop glue. -/
theorem C42_methods (ty p : Nat) (o o' : Obj) (hb : Built arity mem ty p o) (hc : Convs o o') :
    dropGlue mem o' = some (.drop ty) ∧
    ∀ (path : Path) (t off i : Nat) (mutable : Bool), tderef arity o'.vty path = some (t, off) → i < arity t →
      (call arity mem o' path mutable i).map Prod.fst = (if mutable then receiverMut o' else receiver o').map (fun _ => .method ty t i) := by
  have hs := convs_stored hc hb.vtable
  refine ⟨hs _ _ (dropVt_slots ty o'.vty), ?_⟩
  intro path t off i mutable ht hi
  have := hs _ _ (tderef_slots (ty := ty) ht i hi)
  rw [← Nat.add_assoc] at this
  simp only [call, ht, if_pos hi, this]
  cases (if mutable then receiverMut o' else receiver o') <;> rfl

/-- Exactly the traits of a type can be reached, each of them. -/
theorem C42_reachable (v : Vt) (t : Nat) : t ∈ traits v ↔ ∃ path off, tderef arity v path = some (t, off) := by
  induction v with
  | drop => simp [traits, tderef]
  | send v ih => exact ih
  | sync v ih => exact ih
  | table h v ih =>
    simp only [traits, List.mem_append, List.mem_singleton, ih]
    constructor
    · rintro (⟨p, off, h⟩ | rfl)
      · exact ⟨.tail p, off, h⟩
      · exact ⟨.here, _, rfl⟩
    · rintro ⟨p, off, hp⟩
      cases p with
      | here => simp only [tderef, Option.some.injEq, Prod.mk.injEq] at hp; exact .inr hp.1.symm
      | tail p => exact .inl ⟨p, off, hp⟩

/-- An upcast removes traits from the right only and adds none: what remains has the same order, and is followed by the removed trait, if any. -/
theorem C42_super_traits (v w : Vt) (h : Super v w) : traits v = traits w ∨ ∃ t, traits v = traits w ++ [t] := by
  cases h <;> simp [traits]

/-- Upcasts, clones and moves do not change what the trait object points to, nor which vtable it has; a conversion between `Arc` and `Weak` neither. -/
theorem C42_pointee (a b : Obj) (h : Conv a b) : b.vtable = a.vtable ∧ (b.kind = a.kind → a.kind ≠ .mutRef → b.ptr = a.ptr) := by
  refine ⟨by cases h <;> rfl, ?_⟩
  cases h <;> intro hk hm <;> simp_all

/-- `dyn A + B + Send` built from type 7, and its cast to `dyn A + Send`: `A` has two methods, `B` three. -/
def exArity : Nat → Nat
  | 0 => 2
  | _ => 3
def exObj : Obj := ⟨.box, .send (.table 1 (.table 0 .drop)), 500, 900, 100⟩
def exMem (a : Nat) : Option Fn := if 100 ≤ a then (slots exArity 7 exObj.vty)[a - 100]? else none
theorem exBuilt : Built exArity exMem 7 900 exObj := ⟨rfl, by
  intro i f h
  have h2 : exObj.vtable + i - 100 = i := by simp [exObj]
  have h3 : 100 ≤ exObj.vtable + i := by simp [exObj]
  simp only [exMem, if_pos h3, h2]; exact h⟩
example : Convs exObj { exObj with vty := .send (.table 0 .drop), loc := 700 } :=
  .step _ _ _ (.refl _) (.super exObj 700 _ (.send_keep 1 _))
example : call exArity exMem { exObj with vty := .send (.table 0 .drop), loc := 700 } .here false 1 = some (.method 7 0 1, 900) := by decide +kernel
example : call exArity exMem exObj (.tail .here) false 1 = some (.method 7 0 1, 900) := by decide +kernel

/-! ### C43 -/

/-- When a pointer of a kind to a value may be sent to another thread: the rules of `std` for `Box<T>`, `&mut T`, `Arc<T>`, `Weak<T>` and `&T`. -/
def MaySend (t : Auto) : Kind → Prop
  | .box | .mutRef => t.send = true
  | .arc | .weak => t.send = true ∧ t.sync = true
  | .sharedRef => t.sync = true

/-- When a pointer of a kind to a value may be shared with other threads. -/
def MayShare (t : Auto) : Kind → Prop
  | .box | .mutRef | .sharedRef => t.sync = true
  | .arc | .weak => t.send = true ∧ t.sync = true

theorem constructs_super {t : Auto} {v w : Vt} (h : Super v w) (hv : constructs t v = true) : constructs t w = true := by
  cases h <;> simp_all [constructs]

theorem constructs_convs {t : Auto} {a b : Obj} (h : Convs a b) (ha : constructs t a.vty = true) : constructs t b.vty = true := by
  induction h with
  | refl => exact ha
  | step b c _ hc ih =>
    cases hc with
    | super loc' v hs => exact constructs_super hs ih
    | _ => exact ih

theorem constructs_sync {t : Auto} {v : Vt} (h : constructs t v = true) (hs : hasSync v = true) : t.sync = true := by
  induction v with
  | drop => simp [hasSync] at hs
  | send v ih => simp only [constructs, Bool.and_eq_true] at h; exact ih h.2 hs
  | sync v ih => simp only [constructs, Bool.and_eq_true] at h; exact h.1
  | table _ v ih => exact ih h hs

/-- A vtable type whose markers come last in the list of bounds (`dyn A + B + Send + Sync`). -/
def MarkersLast : Vt → Prop
  | .send v => MarkersLast v
  | .sync v => MarkersLast v
  | v => ∀ t : Auto, constructs t v = true

theorem constructs_send {t : Auto} {v : Vt} (hm : MarkersLast v) (h : constructs t v = true) (hs : hasSend v = true) : t.send = true := by
  induction v with
  | drop => simp [hasSend] at hs
  | send v ih => simp only [constructs, Bool.and_eq_true] at h; exact h.1
  | sync v ih => simp only [constructs, Bool.and_eq_true] at h; exact ih hm h.2 hs
  | table _ v ih =>
    -- no marker below: `hasSync` cannot hold
    have := constructs_sync (t := ⟨false, false⟩) (hm ⟨false, false⟩) hs
    cases this

/-- Sharing a `Dyn<Box>`, a `Dyn<&mut>` or a `DynRef` is justified, for any list of bounds and after any conversions; sharing an `Arc` or `Weak` if the
type of the object also requires `Send`.
What is missing from C43 for `Sync`: an `Arc` or `Weak` whose type does not require `Send`, see `C43_arc_sync_refuted`. -/
theorem C43_sync_partial (t : Auto) (o o' : Obj) (hb : constructs t o.vty = true) (hc : Convs o o') (hs : isSync o' = true)
    (hk : o'.kind = .arc ∨ o'.kind = .weak → MarkersLast o'.vty ∧ isSend o' = true) : MayShare t o'.kind := by
  have hv := constructs_convs hc hb
  have h1 := constructs_sync hv hs
  cases hkk : o'.kind <;> simp only [MayShare]
  all_goals first
    | exact h1
    | exact ⟨constructs_send (hk (by simp [hkk])).1 hv (hk (by simp [hkk])).2, h1⟩

/-- Sending a `Dyn<Box>` or `Dyn<&mut>` is justified after any conversions if the markers come last in the list of bounds; sending an `Arc`, `Weak` or shared reference
if the type of the object also requires `Sync`.
What is missing from C43 for `Send`: other orders of bounds, see `C43_box_send_refuted`; an `Arc` or a reference whose type does not require `Sync`, see
`C43_arc_send_refuted` and `C43_ref_send_refuted`. -/
theorem C43_send_partial (t : Auto) (o o' : Obj) (hb : constructs t o.vty = true) (hc : Convs o o') (hs : isSend o' = true)
    (hm : MarkersLast o'.vty) (hk : o'.kind = .arc ∨ o'.kind = .weak ∨ o'.kind = .sharedRef → isSync o' = true) : MaySend t o'.kind := by
  have hv := constructs_convs hc hb
  have h1 := constructs_send hm hv hs
  cases hkk : o'.kind <;> simp only [MaySend]
  all_goals first
    | exact h1
    | exact ⟨h1, constructs_sync hv (hk (by simp [hkk]))⟩
    | exact constructs_sync hv (hk (by simp [hkk]))

example : MarkersLast (.sync (.send (.table 1 (.table 0 .drop)))) := fun _ => rfl
example : constructs ⟨true, true⟩ (.sync (.send (.table 1 (.table 0 .drop)))) = true := rfl

/-- A bound of the type of a trait object. -/
inductive Bound where
  | send
  | sync
  | trait (n : Nat)

/-- The bounds of a trait object type, last one first. -/
def bounds : Vt → List Bound
  | .drop => []
  | .send v => .send :: bounds v
  | .sync v => .sync :: bounds v
  | .table n v => .trait n :: bounds v

/-- A value is accepted for exactly the types whose bounds it satisfies. -/
theorem C43_accepts (t : Auto) (v : Vt) :
    constructs t v = true ↔ (.send ∈ bounds v → t.send = true) ∧ (.sync ∈ bounds v → t.sync = true) := by
  induction v with
  | drop => simp [constructs, bounds]
  | send v ih =>
    simp only [constructs, Bool.and_eq_true, ih, bounds, List.mem_cons, true_or, forall_const, reduceCtorEq, false_or]
    exact ⟨fun ⟨a, _, c⟩ => ⟨a, c⟩, fun ⟨a, c⟩ => ⟨a, fun _ => a, c⟩⟩
  | sync v ih =>
    simp only [constructs, Bool.and_eq_true, ih, bounds, List.mem_cons, true_or, forall_const, reduceCtorEq, false_or]
    exact ⟨fun ⟨a, b, _⟩ => ⟨b, a⟩, fun ⟨b, a⟩ => ⟨a, b, fun _ => a⟩⟩
  | table n v ih => simp [constructs, ih, bounds]
example : Bound.send ∈ bounds (.sync (.send (.table 1 (.table 0 .drop)))) ∧ constructs ⟨false, true⟩ (.sync (.send (.table 1 (.table 0 .drop)))) = false :=
  ⟨by simp [bounds], rfl⟩

/-- An object is `Sync` exactly if `Sync` is one of the bounds. -/
theorem C43_sync_iff (o : Obj) : isSync o = true ↔ .sync ∈ bounds o.vty := by
  have : ∀ v, hasSync v = true ↔ .sync ∈ bounds v := by
    intro v
    induction v with
    | drop => simp [hasSync, bounds]
    | send v ih => simp [hasSync, bounds, ih]
    | sync v ih => simp [hasSync, bounds]
    | table n v ih => simp [hasSync, bounds, ih]
  exact this _

/-- An object is `Send` exactly if `Send` is one of the bounds after the last trait, or there is a trait, and `Sync` is a bound before it. -/
theorem C43_send_iff (o : Obj) : isSend o = true ↔
    ∃ (pre post : List Bound), bounds o.vty = pre ++ post ∧ (∀ n, .trait n ∉ pre) ∧
      (.send ∈ pre ∨ ∃ n rest, post = .trait n :: rest ∧ .sync ∈ rest) := by
  have hsync : ∀ v, hasSync v = true ↔ .sync ∈ bounds v := fun v => C43_sync_iff ⟨.box, v, 0, 0, 0⟩
  have : ∀ v, hasSend v = true ↔ ∃ (pre post : List Bound), bounds v = pre ++ post ∧ (∀ n, .trait n ∉ pre) ∧
      (.send ∈ pre ∨ ∃ n rest, post = .trait n :: rest ∧ .sync ∈ rest) := by
    intro v
    induction v with
    | drop =>
      simp only [hasSend, Bool.false_eq_true, bounds, false_iff]
      rintro ⟨pre, post, h, _, h' | ⟨n, rest, rfl, _⟩⟩
      · simp_all
      · simp at h
    | send v ih =>
      simp only [hasSend, true_iff]
      exact ⟨[.send], bounds v, rfl, by simp, .inl (by simp)⟩
    | sync v ih =>
      simp only [hasSend, ih, bounds]
      constructor
      · rintro ⟨pre, post, h, hp, h'⟩
        exact ⟨.sync :: pre, post, by simp [h], by simpa using hp, h'.imp (fun h => by simp [h]) id⟩
      · rintro ⟨pre, post, h, hp, h'⟩
        cases pre with
        | nil =>
          rcases h' with h' | ⟨n, rest, rfl, _⟩
          · simp at h'
          · simp at h
        | cons b pre =>
          simp only [List.cons_append, List.cons.injEq] at h
          obtain ⟨rfl, h⟩ := h
          exact ⟨pre, post, h, fun n hn => hp n (by simp [hn]), h'.imp (fun h => by simpa using h) id⟩
    | table n v _ =>
      simp only [hasSend, hsync, bounds]
      constructor
      · intro h; exact ⟨[], _, rfl, by simp, .inr ⟨n, _, rfl, h⟩⟩
      · rintro ⟨pre, post, h, hp, h'⟩
        cases pre with
        | nil =>
          rcases h' with h' | ⟨m, rest, rfl, hs⟩
          · simp at h'
          · simp only [List.nil_append, List.cons.injEq] at h
            rw [h.2]; exact hs
        | cons b pre =>
          simp only [List.cons_append, List.cons.injEq] at h
          obtain ⟨rfl, h⟩ := h
          exact absurd (by simp) (hp n)
  exact this _
example : isSend ⟨.box, .sync (.send (.table 1 (.table 0 .drop))), 0, 0, 0⟩ = true ∧ isSend ⟨.box, .table 1 (.send (.table 0 .drop)), 0, 0, 0⟩ = false := ⟨rfl, rfl⟩

/-- `Box<dyn A + Sync + B>` is `Send`, but may hold a value that is not `Send`, like a `MutexGuard`. -/
theorem C43_box_send_refuted : ∃ (t : Auto) (o : Obj), constructs t o.vty = true ∧ isSend o = true ∧ ¬ MaySend t o.kind :=
  ⟨⟨false, true⟩, ⟨.box, .table 1 (.sync (.table 0 .drop)), 0, 0, 0⟩, rfl, rfl, by simp [MaySend]⟩

/-- `Arc<dyn A + Send>` is `Send`, but may hold a value that is not `Sync`, like a `Cell`: its clones are shared with other threads. -/
theorem C43_arc_send_refuted : ∃ (t : Auto) (o : Obj), constructs t o.vty = true ∧ isSend o = true ∧ ¬ MaySend t o.kind ∧ MarkersLast o.vty :=
  ⟨⟨true, false⟩, ⟨.arc, .send (.table 0 .drop), 0, 0, 0⟩, rfl, rfl, by simp [MaySend], fun _ => rfl⟩

/-- `Arc<dyn A + Sync>` is `Sync`, but may hold a value that is not `Send`, which another thread may end up destroying. -/
theorem C43_arc_sync_refuted : ∃ (t : Auto) (o : Obj), constructs t o.vty = true ∧ isSync o = true ∧ ¬ MayShare t o.kind ∧ MarkersLast o.vty :=
  ⟨⟨false, true⟩, ⟨.arc, .sync (.table 0 .drop), 0, 0, 0⟩, rfl, rfl, by simp [MayShare], fun _ => rfl⟩

/-- `&dyn A + Send` (a `DynRef`) is `Send`, but may refer to a value that is not `Sync`, like a `Cell`: two threads then access it. -/
theorem C43_ref_send_refuted : ∃ (t : Auto) (o : Obj), constructs t o.vty = true ∧ isSend o = true ∧ ¬ MaySend t o.kind ∧ MarkersLast o.vty :=
  ⟨⟨true, false⟩, ⟨.sharedRef, .send (.table 0 .drop), 0, 0, 0⟩, rfl, rfl, by simp [MaySend], fun _ => rfl⟩

/-! ### C44 -/

/-- Conversions that do not involve `Dyn<&mut ()>`. -/
inductive ConvsNoMut : Obj → Obj → Prop where
  | refl (o) : ConvsNoMut o o
  | step (a b c) : ConvsNoMut a b → Conv b c → c.kind ≠ .mutRef → ConvsNoMut a c

theorem noMut_ptr {a b : Obj} (h : ConvsNoMut a b) (ha : a.kind ≠ .mutRef) : b.ptr = a.ptr ∧ b.kind ≠ .mutRef := by
  induction h with
  | refl => exact ⟨rfl, ha⟩
  | step b c _ hc hk ih =>
    refine ⟨?_, hk⟩
    rw [← ih.1]
    cases hc with
    | asRef loc' r hn hr =>
      have := ih.2
      cases hkk : b.kind <;> simp_all [iptrRef]
    | asMut loc' r hr => exact (hk rfl).elim
    | tryAsMut loc' r hr => exact (hk rfl).elim
    | _ => rfl

/-- For a `Dyn<Box>`, `Dyn<Arc>`, `Dyn<Weak>` or `DynRef` made from the value at address `p`, after any conversions that do not involve `Dyn<&mut ()>`: methods that take `&self`
or `&mut self` receive `p`, and downcasts of a `Dyn` return `p`.
What is missing from C44: `Dyn<&mut ()>`, see `C44_mut_ref_refuted`; downcasts of a `DynRef`, see `C44_downcast_refuted`. -/
theorem C44_receiver_partial (ty p : Nat) (o o' : Obj) (hb : Built arity mem ty p o) (hk : o.kind ≠ .mutRef) (hc : ConvsNoMut o o') :
    (∀ r, receiver o' = some r → r = p) ∧ (∀ r, receiverMut o' = some r → r = p) ∧ (∀ r, iptrTryMut o' = some r → r = p) ∧
    (o'.kind ≠ .sharedRef → (∀ r, downcastRef o' = some r → r = p) ∧ (∀ r, downcastMut o' = some r → r = p)) ∧
    ∀ path m i f r, call arity mem o' path m i = some (f, r) → r = p := by
  have ⟨h1, h2⟩ := noMut_ptr hc hk
  rw [hb.ptr] at h1
  have hr : ∀ r, receiver o' = some r → r = p := by
    intro r hr
    cases hkk : o'.kind <;> simp_all [receiver, iptrRef]
  have hm : ∀ r, receiverMut o' = some r → r = p := by
    intro r hr
    cases hkk : o'.kind <;> simp_all [receiverMut, iptrMut]
  refine ⟨hr, hm, ?_, ?_, ?_⟩
  · intro r hr
    cases hkk : o'.kind <;> simp_all [iptrTryMut, iptrMut]
  · intro hs
    constructor
    · intro r hr
      cases hkk : o'.kind <;> simp_all [downcastRef, iptrRef]
    · intro r hr
      cases hkk : o'.kind <;> simp_all [downcastMut, iptrMut]
  · intro path m i f r h
    simp only [call] at h
    split at h
    · cases h
    · split at h
      · split at h
        · rename_i hrr
          simp only [Option.some.injEq, Prod.mk.injEq] at h
          obtain ⟨-, rfl⟩ := h
          cases m
          · exact hr _ (by simpa using hrr)
          · exact hm _ (by simpa using hrr)
        · cases h
      · cases h

/-- Methods and downcasts exist for every kind except `Weak`. -/
theorem C44_receiver_exists (o : Obj) (h : o.kind ≠ .weak) : (receiver o).isSome ∧ (downcastRef o).isSome := by
  cases hk : o.kind <;> simp_all [receiver, downcastRef, iptrRef]

example : ConvsNoMut exObj { exObj with kind := .sharedRef, loc := 800 } := .step _ _ _ (.refl _) (.asRef exObj 800 900 (by decide) rfl) (by decide)

/-- A method called on a `Dyn<&mut ()>` does not receive the value but the variable that holds the trait object, wherever that is. -/
theorem C44_mut_ref_refuted (ty p : Nat) (o : Obj) (_ : Built arity mem ty p o) (hk : o.kind = .mutRef) (hl : o.loc ≠ p) :
    receiver o = some o.loc ∧ receiverMut o = some o.loc ∧ downcastRef o ≠ some p ∧ downcastMut o ≠ some p := by
  simp [receiver, receiverMut, downcastRef, downcastMut, iptrRef, iptrMut, hk, hl]

/-- So after `Dyn<Box>::as_mut`, a call reads the fat pointer as if it were the value. -/
theorem C44_as_mut_refuted : ∃ o' : Obj, Conv exObj o' ∧ call exArity exMem o' .here true 0 = some (.method 7 1 0, o'.loc) ∧ o'.loc ≠ 900 :=
  ⟨{ exObj with kind := .mutRef, loc := 600 }, .asMut exObj 600 900 rfl, by decide +kernel, by decide⟩

/-- A successful downcast of a `DynRef` returns the address of the `DynRef`, reinterpreted as the value. -/
theorem C44_downcast_refuted (ty p : Nat) (o : Obj) (_ : Built arity mem ty p o) (hk : o.kind = .sharedRef) (hl : o.loc ≠ p) :
    receiver o = some o.ptr ∧ downcastRef o = some o.loc ∧ downcastRef o ≠ some p := by
  simp [receiver, downcastRef, iptrRef, hk, hl]

example : Built exArity exMem 7 900 { exObj with kind := .sharedRef } ∧ ({ exObj with kind := .sharedRef } : Obj).loc ≠ 900 := ⟨⟨rfl, exBuilt.vtable⟩, by decide⟩

end Verif.Props.Dyn
