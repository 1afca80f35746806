import Verif.Compare.Model

/-! C81: equality, order and hashing of containers and reports agree with each other and with the elements. -/
namespace Verif.Props.Compare
open Verif.Report Verif.Compare

/-! ### Specification -/

/-- `a` and `b` have the same number of elements, and the ones at the same place are equal. -/
def Same (eq : T → T → Bool) (a b : List T) : Prop :=
  a.length = b.length ∧ ∀ (i : Nat) (x y : T), a[i]? = some x → b[i]? = some y → eq x y = true

/-- The comparison of `a` and `b` gives `o`: up to place `i` they agree; then either both have an element and those decide, or one has
ended and the lengths decide. -/
def Decides (pcmp : T → T → Option Ordering) (a b : List T) (o : Option Ordering) : Prop :=
  ∃ i, (∀ j < i, ∃ x y, a[j]? = some x ∧ b[j]? = some y ∧ pcmp x y = some .eq) ∧
    ((∃ x y, a[i]? = some x ∧ b[i]? = some y ∧ pcmp x y = o ∧ o ≠ some .eq) ∨
      ((a.length = i ∨ b.length = i) ∧ o = some (compare a.length b.length)))

/-! ### Lemmas -/

theorem sliceEq_iff (eq : T → T → Bool) : ∀ a b : List T, sliceEq eq a b = true ↔ Same eq a b
  | [], [] => by simp [sliceEq, Same]
  | [], _ :: _ => by simp [sliceEq, Same]
  | _ :: _, [] => by simp [sliceEq, Same]
  | x :: a, y :: b => by
    have ih := sliceEq_iff eq a b
    have e : sliceEq eq (x :: a) (y :: b) = (eq x y && sliceEq eq a b) := by
      unfold sliceEq
      by_cases h : a.length = b.length <;> simp [h]
    rw [e, Bool.and_eq_true, ih]
    constructor
    · rintro ⟨h1, h2, h3⟩
      refine ⟨by simp [h2], fun i u v hu hv => ?_⟩
      cases i with
      | zero => simp at hu hv; subst hu hv; exact h1
      | succ i => exact h3 i u v (by simpa using hu) (by simpa using hv)
    · rintro ⟨h2, h3⟩
      exact ⟨h3 0 x y rfl rfl, by simpa using h2, fun i u v hu hv => h3 (i + 1) u v (by simpa using hu) (by simpa using hv)⟩

theorem slicePcmp_cons (p : T → T → Option Ordering) (x y : T) (a b : List T) :
    slicePcmp p (x :: a) (y :: b) = if p x y = some .eq then slicePcmp p a b else p x y := by
  by_cases h : p x y = some .eq
  · simp [slicePcmp, h, Nat.compare_eq_ite_lt]
  · have : (p x y != some .eq) = true := by simpa using h
    simp [slicePcmp, h, this]

theorem decides (p : T → T → Option Ordering) : ∀ a b : List T, Decides p a b (slicePcmp p a b)
  | [], b => ⟨0, by simp, .inr ⟨.inl rfl, by simp [slicePcmp]⟩⟩
  | x :: a, [] => ⟨0, by simp, .inr ⟨.inr rfl, by simp [slicePcmp]⟩⟩
  | x :: a, y :: b => by
    rw [slicePcmp_cons]
    split
    · next h =>
      obtain ⟨i, h1, h2⟩ := decides p a b
      refine ⟨i + 1, fun j hj => ?_, ?_⟩
      · cases j with
        | zero => exact ⟨x, y, rfl, rfl, h⟩
        | succ j => simpa using h1 j (by omega)
      · rcases h2 with ⟨u, v, hu, hv, h3⟩ | ⟨h3, h4⟩
        · exact .inl ⟨u, v, by simpa using hu, by simpa using hv, h3⟩
        · refine .inr ⟨by simpa using h3, ?_⟩
          rw [h4]; simp [Nat.compare_eq_ite_lt]
    · next h => exact ⟨0, by simp, .inl ⟨x, y, rfl, rfl, rfl, h⟩⟩

theorem Decides.unique {p : T → T → Option Ordering} {a b : List T} {o o' : Option Ordering} (h : Decides p a b o) (h' : Decides p a b o') : o = o' := by
  obtain ⟨i, h1, h2⟩ := h
  obtain ⟨i', h1', h2'⟩ := h'
  rcases Nat.lt_trichotomy i i' with hlt | rfl | hlt
  · obtain ⟨x, y, hx, hy, he⟩ := h1' i hlt
    rcases h2 with ⟨u, v, hu, hv, h3, h4⟩ | ⟨h3, -⟩
    · rw [hx] at hu; rw [hy] at hv
      cases hu; cases hv; exact absurd (h3.symm.trans he) h4
    · have := (List.getElem?_eq_some_iff.mp hx).1
      have := (List.getElem?_eq_some_iff.mp hy).1
      omega
  · rcases h2 with ⟨u, v, hu, hv, h3, h4⟩ | ⟨h3, h4⟩
    · rcases h2' with ⟨u', v', hu', hv', h3', h4'⟩ | ⟨h3', -⟩
      · rw [hu] at hu'; rw [hv] at hv'
        cases hu'; cases hv'; exact h3.symm.trans h3'
      · have := (List.getElem?_eq_some_iff.mp hu).1
        have := (List.getElem?_eq_some_iff.mp hv).1
        omega
    · rcases h2' with ⟨u', v', hu', hv', -, -⟩ | ⟨-, h4'⟩
      · have := (List.getElem?_eq_some_iff.mp hu').1
        have := (List.getElem?_eq_some_iff.mp hv').1
        omega
      · rw [h4, h4']
  · obtain ⟨x, y, hx, hy, he⟩ := h1 i' hlt
    rcases h2' with ⟨u, v, hu, hv, h3, h4⟩ | ⟨h3, -⟩
    · rw [hx] at hu; rw [hy] at hv
      cases hu; cases hv; exact absurd (h3.symm.trans he) h4
    · have := (List.getElem?_eq_some_iff.mp hx).1
      have := (List.getElem?_eq_some_iff.mp hy).1
      omega

theorem slicePcmp_cmp (cmp : T → T → Ordering) (a b : List T) :
    slicePcmp (fun x y => some (cmp x y)) a b = some (sliceCmp cmp a b) := by
  unfold slicePcmp sliceCmp
  have : (fun p : T × T => (some (cmp p.1 p.2) != some .eq)) = (fun p => cmp p.1 p.2 != .eq) := by
    funext p; cases cmp p.1 p.2 <;> rfl
  rw [this]
  split <;> rfl

theorem sliceCmp_lex (cmp : T → T → Ordering) : ∀ a b : List T, sliceCmp cmp a b = List.compareLex cmp a b
  | [], [] => rfl
  | [], _ :: _ => by simp [sliceCmp, List.compareLex, Nat.compare_eq_ite_lt]
  | _ :: _, [] => by simp [sliceCmp, List.compareLex, Nat.compare_eq_ite_lt]
  | x :: a, y :: b => by
    have h := slicePcmp_cons (fun x y => some (cmp x y)) x y a b
    rw [slicePcmp_cmp, slicePcmp_cmp, sliceCmp_lex cmp a b] at h
    rw [List.compareLex_cons_cons]
    cases e : cmp x y <;> simp_all [Ordering.then]

theorem seq_eq_some {eq : T → T → Bool} {k k' : Seq} {a b : List T} {r : Bool} (h : Seq.eq eq k k' a b = some r) : sliceEq eq a b = r := by
  cases k <;> cases k' <;> simp_all [Seq.eq, Seq.asRef]

theorem seq_pcmp_some {p : T → T → Option Ordering} {k k' : Seq} {a b : List T} {o : Option Ordering} (h : Seq.pcmp p k k' a b = some o) :
    slicePcmp p a b = o := by
  cases k <;> cases k' <;> simp_all [Seq.pcmp, Seq.asRef]

theorem text_eq_some {k k' : Text} {a b : Str} {r : Bool} (h : Text.eq k k' a b = some r) : sliceEq (· == ·) a b = r := by
  cases k <;> cases k' <;> simp_all [Text.eq, strEq]

theorem text_pcmp_some {k k' : Text} {a b : Str} {o : Option Ordering} (h : Text.pcmp k k' a b = some o) : some (sliceCmp compare a b) = o := by
  cases k <;> cases k' <;> simp_all [Text.pcmp, strPcmp, strCmp]

theorem same_eq [BEq T] [LawfulBEq T] (a b : List T) : Same (· == ·) a b ↔ a = b := by
  constructor
  · rintro ⟨h1, h2⟩
    apply List.ext_getElem h1
    intro i hi hi'
    exact eq_of_beq (h2 i _ _ (List.getElem?_eq_getElem hi) (List.getElem?_eq_getElem hi'))
  · rintro rfl
    refine ⟨rfl, fun i x y hx hy => ?_⟩
    rw [hx] at hy; cases hy; simp

/-! ### Equality -/

/-- Wherever `==` compiles, it says whether the elements are equal, place by place. -/
theorem C81_eq {eq : T → T → Bool} {k k' : Seq} {a b : List T} {r : Bool} (h : Seq.eq eq k k' a b = some r) :
    r = true ↔ Same eq a b := by
  rw [← seq_eq_some h, sliceEq_iff]

example : Seq.eq (· == ·) .vec .singleOrVec [1, 2, 3] [1, 2, 3] = some true := by decide
example : Seq.eq (· == ·) .singleOrVec .vec [1, 2] [1, 2, 3] = some false := by decide

/-- Strings of all kinds are equal if their texts are. -/
theorem C81_text_eq {k k' : Text} {a b : Str} {r : Bool} (h : Text.eq k k' a b = some r) : r = true ↔ a = b := by
  rw [← text_eq_some h, sliceEq_iff, same_eq]

example : Text.eq .string .str [104, 105] [104, 105] = some true := by decide

/-- `==` never panics or disagrees with itself with the sides swapped, if it compiles both ways and the one of the elements is symmetric. -/
theorem C81_eq_symm {eq : T → T → Bool} (hs : ∀ x y, eq x y = eq y x) {k k' : Seq} {a b : List T} {r r' : Bool}
    (h : Seq.eq eq k k' a b = some r) (h' : Seq.eq eq k' k b a = some r') : r = r' := by
  have e : Same eq a b ↔ Same eq b a :=
    ⟨fun ⟨h1, h2⟩ => ⟨h1.symm, fun i x y hx hy => by rw [hs]; exact h2 i y x hy hx⟩,
      fun ⟨h1, h2⟩ => ⟨h1.symm, fun i x y hx hy => by rw [hs]; exact h2 i y x hy hx⟩⟩
  have := (C81_eq h).trans (e.trans (C81_eq h').symm)
  cases r <;> cases r' <;> simp_all

/-- Every container of elements can be compared with its own kind; vectors of both kinds with each other. -/
theorem C81_comparable (eq : T → T → Bool) (k k' : Seq) (a b : List T) :
    (Seq.eq eq k k' a b).isSome = true ↔ k = k' ∨ (k ∈ [.vec, .singleOrVec] ∧ k' ∈ [.vec, .singleOrVec]) := by
  cases k <;> cases k' <;> simp [Seq.eq, Seq.asRef]

/-- A string can be compared with all kinds of strings, the other kinds only with themselves. -/
theorem C81_text_comparable (k k' : Text) (a b : Str) :
    (Text.eq k k' a b).isSome = true ↔ k = .string ∨ (k = k' ∧ k ≠ .strMut) := by
  cases k <;> cases k' <;> simp [Text.eq]

/-! ### Order -/

/-- Wherever an order is defined, it's the lexicographic one, and incomparable if the first elements that aren't equal are. -/
theorem C81_order {p : T → T → Option Ordering} {k k' : Seq} {a b : List T} {o : Option Ordering} (h : Seq.pcmp p k k' a b = some o) (o' : Option Ordering) :
    o = o' ↔ Decides p a b o' := by
  have hd : Decides p a b o := seq_pcmp_some h ▸ decides p a b
  exact ⟨fun e => e ▸ hd, fun hd' => hd.unique hd'⟩

example : Seq.pcmp (fun x y : Nat => some (compare x y)) .vec .singleOrVec [1, 2, 9] [1, 3] = some (some .lt) := by decide
example : Seq.pcmp (fun x y : Nat => if x = 0 ∨ y = 0 then none else some (compare x y)) .arc .arc [1, 0, 9] [1, 3] = some none := by decide

/-- Strings are ordered by their bytes. -/
theorem C81_text_order {k k' : Text} {a b : Str} {o : Option Ordering} (h : Text.pcmp k k' a b = some o) (o' : Option Ordering) :
    o = o' ↔ Decides (fun x y => some (compare x y)) a b o' := by
  have hd : Decides (fun x y => some (compare x y)) a b o := text_pcmp_some h ▸ slicePcmp_cmp (compare : Nat → Nat → Ordering) a b ▸ decides _ a b
  exact ⟨fun e => e ▸ hd, fun hd' => hd.unique hd'⟩

/-- The partial order and the total one agree if the ones of the elements do. -/
theorem C81_partial_total {cmp : T → T → Ordering} {k : Seq} {a b : List T} {o : Ordering} (h : Seq.cmp cmp k a b = some o) :
    Seq.pcmp (fun x y => some (cmp x y)) k k a b = some (some o) := by
  cases k <;> simp_all [Seq.cmp, Seq.pcmp, Seq.asRef, slicePcmp_cmp]

theorem C81_text_partial_total {k : Text} {a b : Str} {o : Ordering} (h : Text.cmp k a b = some o) : Text.pcmp k k a b = some (some o) := by
  cases k <;> simp_all [Text.cmp, Text.pcmp, strPcmp]

/-- The order of containers is total: nothing is before itself, swapping the sides swaps the answer, and it's transitive. -/
theorem C81_total {cmp : T → T → Ordering} [Std.TransCmp cmp] {k : Seq} (hk : k ∈ [.vec, .singleOrVec, .boxed, .arc]) (a b c : List T) :
    Seq.cmp cmp k a a = some .eq ∧ Seq.cmp cmp k b a = (Seq.cmp cmp k a b).map Ordering.swap ∧
    (Seq.cmp cmp k a b ≠ some .gt → Seq.cmp cmp k b c ≠ some .gt → Seq.cmp cmp k a c ≠ some .gt) := by
  have e : ∀ u v : List T, Seq.cmp cmp k u v = some (List.compareLex cmp u v) := by
    intro u v
    cases k <;> simp_all [Seq.cmp, sliceCmp_lex]
  refine ⟨by rw [e]; simp [Std.ReflCmp.compare_self], by rw [e, e]; simp [Std.OrientedCmp.eq_swap (cmp := List.compareLex cmp) (a := b) (b := a)], ?_⟩
  simp only [e, ne_eq, Option.some.injEq]
  intro h1 h2
  have := Std.TransCmp.isLE_trans (cmp := List.compareLex cmp) (a := a) (b := b) (c := c)
    (by cases h : List.compareLex cmp a b <;> simp_all) (by cases h : List.compareLex cmp b c <;> simp_all)
  intro h3; rw [h3] at this; simp at this

/-- The order of strings is total. -/
theorem C81_text_total {k : Text} (hk : k ∈ [.string, .boxed, .arc]) (a b c : Str) :
    Text.cmp k a a = some .eq ∧ Text.cmp k b a = (Text.cmp k a b).map Ordering.swap ∧
    (Text.cmp k a b ≠ some .gt → Text.cmp k b c ≠ some .gt → Text.cmp k a c ≠ some .gt) := by
  have e : ∀ u v, Text.cmp k u v = Seq.cmp compare .vec u v := by
    intro u v; cases k <;> simp_all [Text.cmp, Seq.cmp, strCmp]
  simp only [e]
  exact C81_total (by simp) a b c

/-- Neither is before the other exactly if they are equal, if that's so for elements. -/
theorem C81_eq_order {eq : T → T → Bool} {p : T → T → Option Ordering} (he : ∀ x y, eq x y = true ↔ p x y = some .eq) {k k' : Seq} {a b : List T}
    {r : Bool} {o : Option Ordering} (h : Seq.eq eq k k' a b = some r) (h' : Seq.pcmp p k k' a b = some o) : r = true ↔ o = some .eq := by
  rw [C81_eq h, C81_order h']
  constructor
  · rintro ⟨h1, h2⟩
    refine ⟨a.length, fun j hj => ?_, .inr ⟨.inl rfl, by simp [h1]⟩⟩
    have hb : j < b.length := by omega
    exact ⟨a[j], b[j], List.getElem?_eq_getElem hj, List.getElem?_eq_getElem hb,
      (he _ _).mp (h2 j _ _ (List.getElem?_eq_getElem hj) (List.getElem?_eq_getElem hb))⟩
  · rintro ⟨i, h1, ⟨x, y, hx, hy, h3, h4⟩ | ⟨h3, h4⟩⟩
    · simp at h4
    · have hl : a.length = b.length := by
        have := h4.symm
        simpa using this
      refine ⟨hl, fun j x y hx hy => ?_⟩
      have := (List.getElem?_eq_some_iff.mp hx).1
      obtain ⟨u, v, hu, hv, h5⟩ := h1 j (by omega)
      rw [hx] at hu; rw [hy] at hv; cases hu; cases hv
      exact (he _ _).mpr h5

theorem C81_text_eq_order {k k' : Text} {a b : Str} {r : Bool} {o : Option Ordering} (h : Text.eq k k' a b = some r)
    (h' : Text.pcmp k k' a b = some o) : r = true ↔ o = some .eq := by
  have e1 : Seq.eq (· == ·) .vec .vec a b = some r := by rw [← text_eq_some h]; rfl
  have e2 : Seq.pcmp (fun x y => some (compare x y)) .vec .vec a b = some o := by
    rw [← text_pcmp_some h', ← slicePcmp_cmp]; rfl
  refine C81_eq_order (fun x y => ?_) e1 e2
  simp

/-! ### Hashing -/

/-- Two containers of elements that are equal hash alike, whatever their kinds, if equal elements do. -/
theorem C81_hash {eq : T → T → Bool} {hashSlice : List T → List Call} (hl : ∀ a b, Same eq a b → hashSlice a = hashSlice b) {k k' : Seq} {a b : List T}
    {x y : List Call} (h : Same eq a b) (hx : Seq.hash hashSlice k a = some x) (hy : Seq.hash hashSlice k' b = some y) : x = y := by
  have e : sliceHash hashSlice a = sliceHash hashSlice b := by simp [sliceHash, h.1, hl a b h]
  cases k <;> cases k' <;> simp_all [Seq.hash]

example : Seq.hash hashBytes .boxed [1, 2] = some [.len 2, .write [1, 2]] := rfl

/-- A boxed slice hashes like the slice it holds: the length, then the elements. -/
theorem C81_hash_slice (hashSlice : List T → List Call) (k : Seq) (a : List T) :
    Seq.hash hashSlice k a = if k ∈ [.vec, .singleOrVec] then none else some (.len a.length :: hashSlice a) := by
  cases k <;> simp [Seq.hash, sliceHash]

/-- Two strings that `==` says are equal hash alike.  What is missing: `Str` compared with a string of another kind, see
`C81_str_refuted`. -/
theorem C81_text_hash_partial {k k' : Text} {a b : Str} (h : Text.eq k k' a b = some true) (hk : (k = .str ↔ k' = .str))
    {x y : List Call} (hx : Text.hash k a = some x) (hy : Text.hash k' b = some y) : x = y := by
  have e : a = b := (C81_text_eq h).mp rfl
  subst e
  cases k <;> cases k' <;> simp_all [Text.hash, Text.eq]

example : Text.eq .string .arc [104, 105] [104, 105] = some true ∧ Text.hash .string [104, 105] = Text.hash .arc [104, 105] := by decide

/-- Owned strings hash like `str`, and different texts hash differently. -/
theorem C81_text_hash {k k' : Text} (hk : k ∈ [.string, .boxed, .arc]) (hk' : k' ∈ [.string, .boxed, .arc]) (a b : Str) :
    Text.hash k a = some [.write a, .u8 255] ∧ (Text.hash k a = Text.hash k' b ↔ a = b) := by
  cases k <;> cases k' <;> simp_all [Text.hash, strHash]

/-- `Str` hashes its length and its bytes, so that different texts hash differently. -/
theorem C81_str_hash (a b : Str) : Text.hash .str a = some [.len a.length, .write a] ∧ (Text.hash .str a = Text.hash .str b ↔ a = b) := by
  refine ⟨rfl, fun h => ?_, fun h => h ▸ rfl⟩
  simp [Text.hash, sliceHash, hashBytes] at h
  exact h.2

/-- `String == Str` compiles and says that equal texts are equal; but they never hash alike, not even for hashers that only see bytes: `Str` derives
`Hash`, which makes it hash like a slice of bytes, with its length in front and nothing behind. -/
theorem C81_str_refuted (a : Str) : Text.eq .string .str a a = some true ∧
    ∃ x y, Text.hash .string a = some x ∧ Text.hash .str a = some y ∧ x.flatMap Call.bytes ≠ y.flatMap Call.bytes := by
  refine ⟨by simp [Text.eq, strEq, sliceEq_iff, same_eq], _, _, rfl, rfl, fun h => ?_⟩
  have := congrArg List.length h
  simp [strHash, sliceHash, hashBytes, Call.bytes] at this
  omega

/-! ### Entries of maps -/

/-- Entries are equal and ordered as their keys, to each other as to keys. -/
theorem C81_entry {eqK : K → K → Bool} {cmpK : K → K → Ordering} (he : ∀ x y, eqK x y = true ↔ cmpK x y = .eq) (a b : Entry K V) :
    (a.eq eqK b = true ↔ a.cmp cmpK b = .eq) ∧ a.pcmp cmpK b = some (a.cmp cmpK b) ∧
    a.eqKey eqK b.key = a.eq eqK b ∧ a.pcmpKey cmpK b.key = a.pcmp cmpK b :=
  ⟨he _ _, rfl, rfl, rfl⟩

/-! ### Reports -/

mutual
theorem reportEq_iff : ∀ r s : Report, reportEq r s = true ↔ r = s
  | .mk n m f t v, .mk n' m' f' t' v' => by
    have := fieldsEq_iff f f'
    simp [reportEq, this, and_assoc]
theorem fieldsEq_iff : ∀ f g : Fields, fieldsEq f g = true ↔ f = g
  | .none, .none => by simp [fieldsEq]
  | .none, .some _ _ _ => by simp [fieldsEq]
  | .some _ _ _, .none => by simp [fieldsEq]
  | .some n t x, .some n' t' x' => by
    have h1 := reportEq_iff t t'
    have h2 := fieldsEq_iff x x'
    simp [fieldsEq, h1, h2, and_assoc]
end

theorem tytyHash_inj {t t' : TyTy} {l l' : List Call} (h : tytyHash t ++ l = tytyHash t' ++ l') : t = t' ∧ l = l' := by
  cases t <;> cases t' <;> simp_all [tytyHash, sliceHash, hashBytes]

mutual
theorem reportHash_inj : ∀ (r s : Report) (l l' : List Call), reportHash r ++ l = reportHash s ++ l' → r = s ∧ l = l'
  | .mk n m f t v, .mk n' m' f' t' v', l, l' => fun h => by
    simp only [reportHash, sliceHash, hashBytes, List.append_assoc, List.cons_append, List.nil_append, List.cons.injEq, Call.len.injEq,
      Call.write.injEq] at h
    obtain ⟨-, h1, -, h2, h3⟩ := h
    obtain ⟨h4, h5, h6⟩ := fieldsHash_inj f f' v v' _ _ h3
    obtain ⟨h7, h8⟩ := tytyHash_inj h6
    subst h1 h2 h4 h5 h7 h8
    exact ⟨rfl, rfl⟩
theorem fieldsHash_inj : ∀ (f g : Fields) (v v' : Nat) (l l' : List Call), fieldsHash f ++ .u32 v :: l = fieldsHash g ++ .u32 v' :: l' →
    f = g ∧ v = v' ∧ l = l'
  | .none, .none, v, v', l, l' => fun h => by simpa [fieldsHash] using h
  | .none, .some _ _ _, v, v', l, l' => fun h => by simp [fieldsHash, sliceHash] at h
  | .some _ _ _, .none, v, v', l, l' => fun h => by simp [fieldsHash, sliceHash] at h
  | .some n t x, .some n' t' x', v, v', l, l' => fun h => by
    simp only [fieldsHash, sliceHash, hashBytes, List.append_assoc, List.cons_append, List.nil_append, List.cons.injEq, Call.len.injEq,
      Call.write.injEq] at h
    obtain ⟨-, h1, h2⟩ := h
    obtain ⟨h3, h4⟩ := reportHash_inj t t' _ _ h2
    obtain ⟨h5, h6, h7⟩ := fieldsHash_inj x x' v v' l l' h4
    subst h1 h3 h5
    exact ⟨rfl, h6, h7⟩
end

/-- Reports are equal exactly if they say the same, and exactly then they make the same calls to a hasher. -/
theorem C81_report (r s : Report) : (reportEq r s = true ↔ r = s) ∧ (reportHash r = reportHash s ↔ r = s) := by
  refine ⟨reportEq_iff r s, fun h => ?_, fun h => h ▸ rfl⟩
  have := reportHash_inj r s [] [] (by simpa using h)
  exact this.1

example : reportHash (.mk [65] [109] (.some [102] (.mk [117, 56] [] .none .struct 0) .none) .union 3) =
    [.len 1, .write [65], .len 1, .write [109], .len 1, .write [102], .len 2, .write [117, 56], .len 0, .write [], .u32 0, .u8 0,
      .u32 3, .u8 2] := by decide

/-- The number that bytes stand for, least significant byte first. -/
def little : List Nat → Nat
  | [] => 0
  | b :: bs => b + 256 * little bs

/-- A call with a number gives eight bytes (a length) or four bytes (a `u32`) to a hasher of bytes, which stand for that number. -/
theorem C81_bytes (n : Nat) :
    (n < 2 ^ 64 → (Call.len n).bytes.length = 8 ∧ (∀ b ∈ (Call.len n).bytes, b < 256) ∧ little (Call.len n).bytes = n) ∧
    (n < 2 ^ 32 → (Call.u32 n).bytes.length = 4 ∧ (∀ b ∈ (Call.u32 n).bytes, b < 256) ∧ little (Call.u32 n).bytes = n) ∧
    (Call.u8 n).bytes = [n] := by
  refine ⟨fun h => ⟨rfl, ?_, ?_⟩, fun h => ⟨rfl, ?_, ?_⟩, rfl⟩
  · simp [Call.bytes]; omega
  · simp only [Call.bytes, show List.range 8 = [0, 1, 2, 3, 4, 5, 6, 7] from rfl, List.map, little]; omega
  · simp [Call.bytes]; omega
  · simp only [Call.bytes, show List.range 4 = [0, 1, 2, 3] from rfl, List.map, little]; omega

example : (Call.len 1000).bytes = [232, 3, 0, 0, 0, 0, 0, 0] := by decide

end Verif.Props.Compare
