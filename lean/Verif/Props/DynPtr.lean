import Verif.Macros.DynPtr

/-! C85: the types that `dynptr!` and `vtable!` give. -/
namespace Verif.Props.DynPtr
open Verif.Dyn Verif.Macros.DynPtr

/-! ### Specification: trait objects in Rust -/

/-- A lifetime; every elided one is its own. -/
inductive Lt where
  | static
  | named (n : Nat)
  | elided
deriving DecidableEq, Repr

/-- A trait object as it is written: `path<dyn l>`, `&'lt (dyn l)` or `&'lt mut (dyn l)`. -/
inductive Written where
  | ptr (leading : Bool) (segs : List Nat) (l : List Item)
  | ref (lt : Option Nat) (isMut : Bool) (l : List Item)

/-- The kind of pointer. -/
inductive Pointer where
  | path (leading : Bool) (segs : List Nat)
  | ref (lt : Lt) (isMut : Bool)
deriving DecidableEq, Repr

/-- A type of trait objects: the pointer, the bounds in their order and how long what is pointed to lives. -/
structure Object where
  pointer : Pointer
  bounds : List Bound
  lt : Lt
deriving DecidableEq, Repr

def traits (l : List Item) : List Bound := l.filterMap fun i => match i with
  | .bound b => some b
  | .lt _ => none

def lifetimes (l : List Item) : List Nat := l.filterMap fun i => match i with
  | .bound _ => none
  | .lt n => some n

/-- What the type means to Rust: at most one lifetime may be written; by default it is `'static`, or that of the reference. -/
def rust : Written → Option Object
  | .ptr leading segs l => match lifetimes l with
    | [] => some ⟨.path leading segs, traits l, .static⟩
    | [n] => some ⟨.path leading segs, traits l, .named n⟩
    | _ => none
  | .ref lt isMut l =>
    let own : Lt := match lt with | some n => .named n | none => .elided
    match lifetimes l with
    | [] => some ⟨.ref own isMut, traits l, own⟩
    | [n] => some ⟨.ref own isMut, traits l, .named n⟩
    | _ => none

/-- The bounds of the type of a vtable, last one first. -/
def bounds : Vt → List Bound
  | .drop => []
  | .send v => .send :: bounds v
  | .sync v => .sync :: bounds v
  | .table n v => .trait n :: bounds v

def ofOpt : Option Nat → Lt
  | some n => .named n
  | none => .static

/-- What stabby's types stand for (README.md:62-65). -/
def stands : Out → Object
  | .dyn lt leading segs vt => ⟨.path leading segs, (bounds vt).reverse, ofOpt lt⟩
  | .dynMut lt vt => ⟨.ref (ofOpt lt) true, (bounds vt).reverse, ofOpt lt⟩
  | .dynRef lt vt => ⟨.ref (ofOpt lt) false, (bounds vt).reverse, ofOpt lt⟩

/-! ### How it is written -/

def Item.tok : Item → Tok
  | .bound b => .bound b
  | .lt n => .lt n

/-- `a + b + c`. -/
def plused : List Item → List Tok
  | [] => []
  | [i] => [Item.tok i]
  | i :: j :: l => Item.tok i :: .plus :: plused (j :: l)

/-- `a::b::c`. -/
def pathed : List Nat → List Tok
  | [] => []
  | [n] => [.id n]
  | n :: m :: l => .id n :: .colon2 :: pathed (m :: l)

/-- `::path<x>`. -/
def ptrToks (leading : Bool) (segs : List Nat) (x : List Tok) : List Tok :=
  (if leading then [.colon2] else []) ++ pathed segs ++ .langle :: x ++ [.rangle]

/-- `&'lt mut x`. -/
def refToks (lt : Option Nat) (isMut : Bool) (x : List Tok) : List Tok :=
  .amp :: ((lt.map Tok.lt).toList ++ (if isMut then [Tok.mutable] else []) ++ x)

/-- As Rust wants it to be written: in parentheses if there are several bounds behind a reference. -/
def print : Written → List Tok
  | .ptr leading segs l => ptrToks leading segs (.dyn :: plused l)
  | .ref lt isMut [i] => refToks lt isMut [.dyn, Item.tok i]
  | .ref lt isMut l => refToks lt isMut (.open :: .dyn :: plused l ++ [.close])

/-! ### Parsing -/

theorem items_plused : ∀ (l : List Item) (r : List Tok), l ≠ [] → r.head? ≠ some .plus → items true (plused l ++ r) = some (l, r)
  | [], _, h, _ => absurd rfl h
  | [i], r, _, hr => by
    cases r with
    | nil => cases i <;> simp [plused, Item.tok, items]
    | cons t r =>
      have : t ≠ .plus := by simpa using hr
      cases i <;> simp only [plused, Item.tok, List.cons_append, List.nil_append] <;> rw [items] <;> simp_all
  | i :: j :: l, r, _, hr => by
    have ih := items_plused (j :: l) r (by simp) hr
    cases i <;> simp [plused, Item.tok, items, ih]

theorem items_false (i : Item) (r : List Tok) : items false (Item.tok i :: r) = some ([i], r) := by
  cases r with
  | nil => cases i <;> simp [Item.tok, items]
  | cons t r => cases i <;> cases t <;> simp [Item.tok, items]

theorem any_traits (l : List Item) :
    l.any (fun i => match i with | .bound _ => true | .lt _ => false) = true ↔ traits l ≠ [] := by
  induction l with
  | nil => simp [traits]
  | cons i l ih => cases i <;> simp_all [traits]

theorem object_plused (l : List Item) (r : List Tok) (h : traits l ≠ []) (hr : r.head? ≠ some .plus) :
    object true (plused l ++ r) = some (.obj l, r) := by
  have hl : l ≠ [] := by rintro rfl; exact h rfl
  rw [object, items_plused l r hl hr]
  exact if_pos ((any_traits l).2 h)

theorem segments_pathed : ∀ (segs : List Nat) (r : List Tok), segs ≠ [] → (∀ n, r ≠ .colon2 :: .id n :: r.tail.tail) →
    segments (pathed segs ++ r) = some (segs, r)
  | [], _, h, _ => absurd rfl h
  | [n], r, _, hr => by
    rcases r with _ | ⟨t, _ | ⟨t', r⟩⟩
    · simp [pathed, segments]
    · cases t <;> simp [pathed, segments]
    · cases t <;> cases t' <;> simp_all [pathed, segments]
  | n :: m :: l, r, _, hr => by
    have ih := segments_pathed (m :: l) r (by simp) hr
    cases l with
    | nil => simp [pathed, segments] at ih ⊢; simp [ih]
    | cons k l => simp [pathed, segments] at ih ⊢; simp [ih]

theorem split_eq : ∀ (l : List Item) (bs : List Bound) (lt : Option Nat), split l bs lt =
    match lt.toList ++ lifetimes l with
    | [] => some (bs ++ traits l, none)
    | [n] => some (bs ++ traits l, some n)
    | _ => none
  | [], bs, lt => by cases lt <;> simp [split, lifetimes, traits]
  | .bound b :: l, bs, lt => by
    have : lifetimes (.bound b :: l) = lifetimes l := rfl
    rw [split, split_eq l, this]
    simp [traits]
  | .lt n :: l, bs, lt => by
    have : lifetimes (.lt n :: l) = n :: lifetimes l := rfl
    have ht : traits (.lt n :: l) = traits l := rfl
    rw [this, ht]
    cases lt with
    | none => simp [split, split_eq l]
    | some m => simp [split]

theorem bounds_fold (bs : List Bound) : ∀ vt, bounds (bs.foldl wrap vt) = bs.reverse ++ bounds vt := by
  induction bs with
  | nil => simp
  | cons b bs ih =>
    intro vt
    rw [List.foldl_cons, ih]
    cases b <;> simp [wrap, bounds]

theorem pathed_head (segs : List Nat) (h : segs ≠ []) : ∃ n r, pathed segs = .id n :: r := by
  match segs, h with
  | [n], _ => exact ⟨n, _, rfl⟩
  | n :: m :: l, _ => exact ⟨n, _, rfl⟩

theorem ty_path (n : Nat) (leading : Bool) (segs : List Nat) (hs : segs ≠ []) (r : List Tok) :
    ty (n + 1) true ((if leading then [.colon2] else []) ++ pathed segs ++ r) = path (args n) leading (pathed segs ++ r) := by
  obtain ⟨k, x, hx⟩ := pathed_head segs hs
  cases leading <;> simp [hx, ty]

theorem ty_ptr (n : Nat) (leading : Bool) (segs : List Nat) (hs : segs ≠ []) (l : List Item) (h : traits l ≠ []) :
    ty (n + 3) true (ptrToks leading segs (.dyn :: plused l)) = some (.path leading segs false (.ty (.obj l) .nil), []) := by
  rw [ptrToks, List.append_assoc, List.cons_append, ty_path _ _ _ hs, path, segments_pathed _ _ hs (by simp)]
  have : args (n + 2) (.dyn :: (plused l ++ [.rangle])) = some (.ty (.obj l) .nil, []) := by
    simp [args, ty, object_plused l [.rangle] h (by simp)]
  simp [this]

theorem length_pathed : ∀ segs : List Nat, segs ≠ [] → 1 ≤ (pathed segs).length
  | [n], _ => by simp [pathed]
  | n :: m :: l, _ => by simp [pathed]

/-- Pointers with a path: whatever trait object is written, `dynptr!` gives stabby's type of the same pointer, bounds, order and lifetime; what Rust
refuses is refused. -/
theorem C85_ptr (leading : Bool) (segs : List Nat) (hs : segs ≠ []) (l : List Item) (h : traits l ≠ []) :
    (dynptr (print (.ptr leading segs l))).map stands = rust (.ptr leading segs l) := by
  have hl : (print (.ptr leading segs l)).length + 1 = (print (.ptr leading segs l)).length - 2 + 3 := by
    have := length_pathed segs hs
    simp [print, ptrToks]
    omega
  rw [dynptr, hl]
  simp only [print, ty_ptr _ leading segs hs l h, dynPtr, split_eq, rust]
  rcases hlt : lifetimes l with _ | ⟨a, _ | ⟨b, x⟩⟩ <;> simp [stands, bounds_fold, bounds, ofOpt]

theorem ty_ref (n : Nat) (plus : Bool) (lt : Option Nat) (isMut : Bool) (x : List Tok) (hx : ∀ k, x.head? ≠ some (.lt k)) (hx' : x.head? ≠ some .mutable) :
    ty (n + 1) plus (refToks lt isMut x) = (ty n false x).map fun (t, r) => (.ref lt isMut t, r) := by
  cases lt <;> cases isMut <;> rcases x with _ | ⟨t, x⟩ <;> simp [refToks, ty] <;> cases t <;> simp_all [ty]

/-- References that are written with their lifetime, to one trait. -/
theorem C85_ref_partial (n : Nat) (isMut : Bool) (b : Bound) :
    (dynptr (print (.ref (some n) isMut [.bound b]))).map stands = rust (.ref (some n) isMut [.bound b]) := by
  have hl : (print (.ref (some n) isMut [.bound b])).length + 1 = (print (.ref (some n) isMut [.bound b])).length - 1 + 1 + 1 := by
    simp [print, refToks]
  rw [dynptr, hl]
  simp only [print]
  rw [ty_ref _ _ _ _ _ (by simp) (by simp)]
  have : ∀ k, ty (k + 1) false [.dyn, .bound b] = some (.obj [.bound b], []) := fun k => by
    have := items_false (.bound b) []
    simp only [Item.tok] at this
    simp [ty, object, this]
  simp only [Item.tok, refToks] at this ⊢
  simp only [List.length_cons, List.length_append]
  rw [this]
  cases isMut <;> cases b <;> simp [dynPtr, split, rust, lifetimes, traits, stands, bounds, wrap, ofOpt]

/-- References to several bounds cannot be written: neither with the parentheses that Rust demands, nor without them (as in README.md:62-63). -/
theorem C85_several_refuted (lt : Option Nat) (isMut : Bool) (l : List Item) (hl : 2 ≤ l.length) :
    dynptr (print (.ref lt isMut l)) = none ∧ dynptr (refToks lt isMut (.dyn :: plused l)) = none := by
  match l, hl with
  | i :: j :: l, _ =>
    constructor
    · rw [dynptr]
      simp only [print]
      rw [ty_ref _ _ _ _ _ (by simp) (by simp)]
      cases h : ty (refToks lt isMut (.open :: .dyn :: plused (i :: j :: l) ++ [.close])).length false (.open :: .dyn :: plused (i :: j :: l) ++ [.close]) with
      | none => simp
      | some p =>
        obtain ⟨t, r⟩ := p
        have ht : ∃ t', t = .paren t' := by
          simp only [refToks, List.length_cons, List.cons_append, ty] at h
          split at h
          · cases h; exact ⟨_, rfl⟩
          · cases h
        obtain ⟨t', rfl⟩ := ht
        cases r <;> cases isMut <;> simp [dynPtr]
    · rw [dynptr, ty_ref _ _ _ _ _ (by simp) (by simp)]
      have : ty (refToks lt isMut (.dyn :: plused (i :: j :: l))).length false (.dyn :: plused (i :: j :: l)) = none ∨
          ∃ t, ty (refToks lt isMut (.dyn :: plused (i :: j :: l))).length false (.dyn :: plused (i :: j :: l)) = some (t, .plus :: plused (j :: l)) := by
        simp only [refToks, List.length_cons, ty, plused, object, items_false]
        split
        · exact .inr ⟨_, rfl⟩
        · exact .inl rfl
      rcases this with h | ⟨t, h⟩ <;> simp [h]

/-- Elided lifetimes of references become `'static`. -/
theorem C85_elided_refuted (isMut : Bool) (b : Bound) : ∃ o, dynptr (print (.ref none isMut [.bound b])) = some o ∧
    (stands o).pointer = .ref .static isMut ∧ (stands o).lt = .static ∧ rust (.ref none isMut [.bound b]) ≠ some (stands o) := by
  cases isMut <;> cases b <;> exact ⟨_, rfl, rfl, rfl, by simp [rust, lifetimes, stands, ofOpt]⟩

/-- `path::<dyn l>`. -/
def turbofish (leading : Bool) (segs : List Nat) (l : List Item) : List Tok :=
  (if leading then [.colon2] else []) ++ pathed segs ++ [.colon2, .langle, .dyn] ++ plused l ++ [.rangle]

/-- Pointers with further arguments, such as an allocator, cannot be written, nor ones with `::<`. -/
theorem C85_arguments_refuted (leading : Bool) (segs : List Nat) (hs : segs ≠ []) (l : List Item) (h : traits l ≠ []) (a : Nat) :
    dynptr (ptrToks leading segs (.dyn :: plused l ++ [.comma, .id a])) = none ∧
    dynptr (turbofish leading segs l) = none := by
  have hlen := length_pathed segs hs
  have hpl : plused l ≠ [] := by
    match l, h with
    | [i], _ => simp [plused]
    | i :: j :: l, _ => simp [plused]
  have hpl : 1 ≤ (plused l).length := List.length_pos_iff.2 hpl
  constructor
  · have hl : (ptrToks leading segs (.dyn :: plused l ++ [.comma, .id a])).length + 1 =
        (ptrToks leading segs (.dyn :: plused l ++ [.comma, .id a])).length - 3 + 4 := by
      simp [ptrToks]; omega
    rw [dynptr, hl]
    generalize (ptrToks leading segs (.dyn :: plused l ++ [.comma, .id a])).length - 3 = n
    rw [ptrToks, List.append_assoc, List.cons_append, ty_path _ _ _ hs, path, segments_pathed _ _ hs (by simp)]
    have : args (n + 3) (.dyn :: (plused l ++ [.comma, .id a, .rangle])) = some (.ty (.obj l) (.ty (.plain false [a]) .nil), []) := by
      simp [args, ty, object_plused l (.comma :: .id a :: [.rangle]) h (by simp), path, segments]
    simp [this, dynPtr]
  · have hl : (turbofish leading segs l).length + 1 =
        (turbofish leading segs l).length - 2 + 3 := by
      simp [turbofish]; omega
    rw [dynptr, hl]
    generalize (turbofish leading segs l).length - 2 = n
    rw [turbofish, List.append_assoc, List.append_assoc, ty_path _ _ _ hs, path, segments_pathed _ _ hs (by simp)]
    have : args (n + 2) (.dyn :: (plused l ++ [.rangle])) = some (.ty (.obj l) .nil, []) := by
      simp [args, ty, object_plused l [.rangle] h (by simp)]
    simp [this, dynPtr]

/-- Without `dyn`, one bound is a type and is refused; several are an object, as they were before Rust 2021. -/
theorem C85_bare (leading : Bool) (segs : List Nat) (hs : segs ≠ []) :
    (∀ b, dynptr (ptrToks leading segs (plused [.bound b])) = none) ∧
    ∀ b i l, dynptr (ptrToks leading segs (plused (.bound b :: i :: l))) = dynptr (ptrToks leading segs (.dyn :: plused (.bound b :: i :: l))) := by
  have hlen := length_pathed segs hs
  constructor
  · intro b
    have hl : (ptrToks leading segs (plused [.bound b])).length + 1 = (ptrToks leading segs (plused [.bound b])).length - 2 + 3 := by
      simp [ptrToks, plused]; omega
    rw [dynptr, hl]
    generalize (ptrToks leading segs (plused [.bound b])).length - 2 = n
    rw [ptrToks, List.append_assoc, List.cons_append, ty_path _ _ _ hs, path, segments_pathed _ _ hs (by simp)]
    simp [args, ty, plused, Item.tok, dynPtr]
  · intro b i l
    have ht : traits (.bound b :: i :: l) ≠ [] := by simp [traits]
    have hl : (ptrToks leading segs (plused (.bound b :: i :: l))).length + 1 = (ptrToks leading segs (plused (.bound b :: i :: l))).length - 2 + 3 := by
      simp [ptrToks, plused]; omega
    have hl' : (ptrToks leading segs (.dyn :: plused (.bound b :: i :: l))).length + 1 = (ptrToks leading segs (.dyn :: plused (.bound b :: i :: l))).length - 2 + 3 := by
      simp [ptrToks, plused]; omega
    rw [dynptr, dynptr, hl, hl', ty_ptr _ leading segs hs _ ht]
    generalize (ptrToks leading segs (plused (.bound b :: i :: l))).length - 2 = n
    rw [ptrToks, List.append_assoc, List.cons_append, ty_path _ _ _ hs, path, segments_pathed _ _ hs (by simp)]
    have : args (n + 2) (plused (.bound b :: i :: l) ++ [.rangle]) = some (.ty (.obj (.bound b :: i :: l)) .nil, []) := by
      have ho := object_plused (.bound b :: i :: l) [.rangle] ht (by simp)
      have e : plused (.bound b :: i :: l) = .bound b :: .plus :: plused (i :: l) := rfl
      rw [e] at ho ⊢
      simp only [List.cons_append] at ho ⊢
      simp [args, ty, ho]
    simp [this]

theorem separated_plused : ∀ l : List Item, l ≠ [] → separated (plused l) = some l
  | [], h => absurd rfl h
  | [i], _ => by cases i <;> simp [plused, Item.tok, separated]
  | i :: j :: l, _ => by
    have ih := separated_plused (j :: l) (by simp)
    cases i <;> simp [plused, Item.tok, separated, ih]

theorem vtables_eq : ∀ (l : List Item) (vt : Vt), vtables l vt = if lifetimes l = [] then some ((traits l).foldl wrap vt) else none
  | [], vt => by simp [vtables, lifetimes, traits]
  | .bound b :: l, vt => by
    have h1 : lifetimes (.bound b :: l) = lifetimes l := rfl
    have h2 : traits (.bound b :: l) = b :: traits l := rfl
    rw [vtables, vtables_eq l, h1, h2, List.foldl_cons]
  | .lt n :: l, vt => by
    have h1 : lifetimes (.lt n :: l) = n :: lifetimes l := rfl
    simp [vtables, h1]

/-- `vtable!` names the same bounds in the same order, and accepts no lifetimes. -/
theorem C85_vtable (l : List Item) (h : l ≠ []) :
    (∀ vt, vtable (plused l) = some vt → bounds vt = (traits l).reverse ∧ lifetimes l = []) ∧ (lifetimes l = [] → ∃ vt, vtable (plused l) = some vt) := by
  rw [vtable, separated_plused l h]
  simp only [vtables_eq]
  constructor
  · intro vt hv
    by_cases hl : lifetimes l = []
    · simp only [hl, if_true, Option.some.injEq] at hv
      subst hv
      exact ⟨by simp [bounds_fold, bounds], hl⟩
    · simp [hl] at hv
  · intro hl
    exact ⟨_, if_pos hl⟩

theorem bounds_inj : ∀ v w : Vt, bounds v = bounds w → v = w
  | .drop, .drop, _ => rfl
  | .send v, .send w, h => by simp [bounds] at h; rw [bounds_inj v w h]
  | .sync v, .sync w, h => by simp [bounds] at h; rw [bounds_inj v w h]
  | .table n v, .table m w, h => by simp [bounds] at h; rw [bounds_inj v w h.2, h.1]
  | .drop, .send _, h | .drop, .sync _, h | .drop, .table _ _, h | .send _, .drop, h | .send _, .sync _, h | .send _, .table _ _, h
  | .sync _, .drop, h | .sync _, .send _, h | .sync _, .table _ _, h | .table _ _, .drop, h | .table _ _, .send _, h | .table _ _, .sync _, h => by
    simp [bounds] at h

/-- Both macros give the same vtable for the same bounds, and only for them. -/
theorem C85_same (leading : Bool) (segs : List Nat) (hs : segs ≠ []) (l l' : List Item) (h : traits l ≠ []) (h' : l' ≠ []) (o : Out) (vt : Vt)
    (ho : dynptr (print (.ptr leading segs l)) = some o) (hv : vtable (plused l') = some vt) :
    (∃ lt, o = .dyn lt leading segs vt) ↔ traits l = traits l' := by
  have h1 := C85_ptr leading segs hs l h
  rw [ho] at h1
  have h2 := ((C85_vtable l' h').1 vt hv).1
  have h3 : (stands o).bounds = traits l ∧ (stands o).pointer = .path leading segs := by
    simp only [Option.map_some, rust] at h1
    split at h1 <;> simp at h1 <;> simp [h1]
  constructor
  · rintro ⟨lt, rfl⟩
    simp only [stands, h2, List.reverse_reverse] at h3
    exact h3.1.symm
  · intro he
    cases o with
    | dyn lt ld sg v =>
      simp only [stands, Pointer.path.injEq] at h3
      obtain ⟨h4, rfl, rfl⟩ := h3
      refine ⟨lt, ?_⟩
      rw [bounds_inj v vt (by rw [h2, ← he, ← h4, List.reverse_reverse])]
    | dynMut lt v => simp [stands] at h3
    | dynRef lt v => simp [stands] at h3

/-! ### Examples -/

/-- `dynptr!(a::Box<dyn T1 + Send + 'a>)` -/
example : dynptr [.id 0, .colon2, .id 1, .langle, .dyn, .bound (.trait 1), .plus, .bound .send, .plus, .lt 0, .rangle] =
    some (.dyn (some 0) false [0, 1] (.send (.table 1 .drop))) := by decide +kernel
example : print (.ptr false [0, 1] [.bound (.trait 1), .bound .send, .lt 0]) =
    [.id 0, .colon2, .id 1, .langle, .dyn, .bound (.trait 1), .plus, .bound .send, .plus, .lt 0, .rangle] := rfl
example : dynptr (print (.ref (some 3) true [.bound (.trait 1)])) = some (.dynMut (some 3) (.table 1 .drop)) := by decide +kernel
example : dynptr (print (.ptr true [0] [.lt 1, .bound (.trait 1), .lt 0])) = none := by decide +kernel
example : rust (.ref (some 3) false [.bound (.trait 1), .bound .send]) = some ⟨.ref (.named 3) false, [.trait 1, .send], .named 3⟩ := rfl
example : vtable (plused [.bound (.trait 1), .bound .send, .bound (.trait 0)]) = some (.table 0 (.send (.table 1 .drop))) := by decide +kernel

end Verif.Props.DynPtr
