import Verif.Macros.Bounds
import Verif.Props.Traits

/-! C87: the bounds of traits. -/
namespace Verif.Props.Bounds
open Verif.Macros.Traits hiding Tok
open Verif.Macros.Bounds Verif.Props.Traits

/-! ### Specification: Rust's grammar of `where` clauses -/

/-- A bound: a trait with its `for<..>`, or a lifetime. -/
inductive B where
  | trait (binder : Option Nat) (t : Ty)
  | lifetime (l : Lt)
  deriving DecidableEq

/-- A predicate: `for<..>`, a type, its bounds. -/
structure Pred where
  binder : Option Nat
  target : Ty
  bounds : List B
  deriving DecidableEq

/-- One bound. -/
def readBound : List Tok → Option (B × List Tok)
  | .lt l :: r => some (.lifetime l, r)
  | .ty t :: r => some (.trait none t, r)
  | .binder n :: .ty t :: r => some (.trait (some n) t, r)
  | _ => none

/-- Bounds, separated by `+`, which may also come last.  The first argument bounds their number. -/
def readBounds : Nat → List Tok → List B × List Tok
  | 0, r => ([], r)
  | n + 1, r => match readBound r with
    | none => ([], r)
    | some (b, .plus :: r) => (b :: (readBounds n r).1, (readBounds n r).2)
    | some (b, r) => ([b], r)

/-- The head of a predicate: `for<..>`, the type and the colon. -/
def readHead : List Tok → Option (Option Nat × Ty × List Tok)
  | .ty t :: .colon :: r => some (none, t, r)
  | .binder n :: .ty t :: .colon :: r => some (some n, t, r)
  | _ => none

/-- A `where` clause: predicates, separated by commas, which may also come last. -/
def readWhere : Nat → List Tok → Option (List Pred)
  | _, [] => some []
  | 0, _ :: _ => none
  | n + 1, r => (readHead r).bind fun (b, t, r) =>
    let (bs, r') := readBounds r.length r
    match r' with
    | [] => some [⟨b, t, bs⟩]
    | .comma :: r' => (readWhere n r').map (⟨b, t, bs⟩ :: ·)
    | _ => none

/-- What a list of tokens means as a `where` clause, if it is one. -/
def clause (r : List Tok) : Option (List Pred) := readWhere r.length r

/-! ### Reading what is written -/

theorem readBounds_one (n : Nat) (b : Option Nat) (t : Ty) (r : List Tok) : readBounds (n + 1) (binder b ++ [.ty t, .comma] ++ r) = ([.trait b t], .comma :: r) := by
  cases b <;> simp [readBounds, readBound, binder]

theorem readWhere_mono : ∀ (n : Nat) (r : List Tok) (ps : List Pred), readWhere n r = some ps → readWhere (n + 1) r = some ps
  | _, [], ps, h => by simpa [readWhere] using h
  | 0, _ :: _, _, h => by simp [readWhere] at h
  | n + 1, t :: r, ps, h => by
    rw [readWhere] at h ⊢
    · rw [Option.bind_eq_some_iff] at h ⊢
      obtain ⟨⟨b, ty, r'⟩, h1, h2⟩ := h
      refine ⟨_, h1, ?_⟩
      rcases hb : readBounds r'.length r' with ⟨bs, r2⟩
      simp only [hb] at h2 ⊢
      cases r2 with
      | nil => exact h2
      | cons c r2 =>
        cases c with
        | comma =>
          simp only [Option.map_eq_some_iff] at h2 ⊢
          obtain ⟨ps', h3, h4⟩ := h2
          exact ⟨ps', readWhere_mono n _ ps' h3, h4⟩
        | _ => cases h2
    · simp
    · simp

theorem readWhere_le {n m : Nat} (h : n ≤ m) {r : List Tok} {ps : List Pred} (hr : readWhere n r = some ps) : readWhere m r = some ps := by
  induction h with
  | refl => exact hr
  | step _ ih => exact readWhere_mono _ _ _ ih

theorem clause_cons (t : Ty) (b : Option Nat) (u : Ty) (r : List Tok) (ps : List Pred) (h : clause r = some ps) :
    clause (.ty t :: .colon :: binder b ++ [.ty u, .comma] ++ r) = some (⟨none, t, [.trait b u]⟩ :: ps) := by
  have hr : readWhere (r.length + (binder b).length + 3) r = some ps := readWhere_le (by omega) h
  have hl : (.ty t :: .colon :: binder b ++ [.ty u, .comma] ++ r : List Tok).length = (r.length + (binder b).length + 3) + 1 := by simp; omega
  rw [clause, hl, readWhere]
  · have := readBounds_one ((binder b).length + r.length + 1) b u r
    simp only [List.append_assoc, List.cons_append, List.nil_append] at this
    simp [readHead, this, hr, ← Nat.add_assoc]
  · simp

theorem clause_lt (t : Ty) (l : Lt) (r : List Tok) (ps : List Pred) (h : clause r = some ps) :
    clause (.ty t :: .colon :: .lt l :: .comma :: r) = some (⟨none, t, [.lifetime l]⟩ :: ps) := by
  have hr : readWhere (r.length + 3) r = some ps := readWhere_le (by omega) h
  rw [clause]
  simp only [List.length_cons]
  rw [readWhere]
  · simp [readHead, readBounds, readBound, hr]
  · simp

/-! ### Lifetimes -/

/-- A lifetime is followed by a type. -/
def stuck : List Tok → Bool
  | .lt _ :: .ty _ :: _ => true
  | _ :: r => stuck r
  | [] => false

theorem stuck_cons (t : Tok) (r : List Tok) (h : stuck r = true) : stuck (t :: r) = true := by
  unfold stuck
  split <;> simp_all

theorem stuck_append (a r : List Tok) (h : stuck r = true) : stuck (a ++ r) = true := by
  induction a with
  | nil => exact h
  | cons t a ih => exact stuck_cons t _ ih

theorem stuck_of (a : List Tok) (l : Lt) (t : Ty) (r : List Tok) : stuck (a ++ .lt l :: .ty t :: r) = true := stuck_append _ _ (by simp [stuck])

theorem readBound_stuck : ∀ (r : List Tok) (b : B) (r' : List Tok), readBound r = some (b, r') → stuck r = true →
    stuck r' = true ∨ ∃ t r'', r' = .ty t :: r''
  | .lt l :: r, b, r', h, hs => by
    simp only [readBound, Option.some.injEq, Prod.mk.injEq] at h
    obtain ⟨-, rfl⟩ := h
    cases r with
    | nil => simp [stuck] at hs
    | cons t r =>
      cases t <;> simp_all [stuck]
  | .ty t :: r, b, r', h, hs => by
    simp only [readBound, Option.some.injEq, Prod.mk.injEq] at h
    obtain ⟨-, rfl⟩ := h
    exact .inl (by simpa [stuck] using hs)
  | .binder n :: .ty t :: r, b, r', h, hs => by
    simp only [readBound, Option.some.injEq, Prod.mk.injEq] at h
    obtain ⟨-, rfl⟩ := h
    exact .inl (by simpa [stuck] using hs)

theorem readBounds_stuck : ∀ (n : Nat) (r : List Tok), stuck r = true →
    stuck (readBounds n r).2 = true ∨ ∃ t r'', (readBounds n r).2 = .ty t :: r''
  | 0, r, h => .inl h
  | n + 1, r, h => by
    rw [readBounds]
    cases hb : readBound r with
    | none => exact .inl h
    | some p =>
      obtain ⟨b, r'⟩ := p
      have := readBound_stuck r b r' hb h
      cases r' with
      | nil => simp [stuck] at this
      | cons t r' =>
        cases t with
        | plus =>
          rcases this with h' | ⟨t, r'', h'⟩
          · exact readBounds_stuck n r' (by simpa [stuck] using h')
          · cases h'
        | _ => exact this

theorem readWhere_stuck : ∀ (n : Nat) (r : List Tok), stuck r = true → readWhere n r = none
  | _, [], h => by simp [stuck] at h
  | 0, _ :: _, _ => rfl
  | n + 1, t :: r, h => by
    rw [readWhere]
    · rw [Option.bind_eq_none_iff]
      rintro ⟨b, ty, r'⟩ h1
      have h' : stuck r' = true := by
        unfold readHead at h1
        split at h1
        · rename_i heq
          simp only [Option.some.injEq, Prod.mk.injEq] at h1
          obtain ⟨-, -, rfl⟩ := h1
          rw [heq] at h
          simpa [stuck] using h
        · rename_i heq
          simp only [Option.some.injEq, Prod.mk.injEq] at h1
          obtain ⟨-, -, rfl⟩ := h1
          rw [heq] at h
          simpa [stuck] using h
        · cases h1
      have := readBounds_stuck r'.length r' h'
      simp only
      split
      · rename_i heq
        rw [heq] at this
        simp [stuck] at this
      · rename_i heq
        rw [heq] at this
        rcases this with h2 | ⟨_, _, h2⟩
        · rw [readWhere_stuck n _ (by simpa [stuck] using h2)]
          rfl
        · cases h2
      · rfl
    · simp

theorem clause_stuck (r : List Tok) (h : stuck r = true) : clause r = none := readWhere_stuck _ r h

/-! ### The `where` clauses -/

/-- A predicate with the parameters of the vtable instantiated. -/
def instPred (σ : Nat → Ty) (p : Pred) : Pred :=
  ⟨p.binder, inst σ p.target, p.bounds.map fun
    | .trait b t => .trait b (inst σ t)
    | .lifetime l => .lifetime l⟩

/-- What the trait requires of an implementor, which `w` stands for, by one bound of an associated type. -/
def wantedOf (w name : Nat) : Bound → Pred
  | .trait _ b t => ⟨none, .arbitrary w (.path (.user name) .none .none), [.trait b (replaceSelf w t)]⟩
  | .lifetime l => ⟨none, .arbitrary w (.path (.user name) .none .none), [.lifetime l]⟩

/-- What the trait requires of the associated types of an implementor. -/
def wanted (w : Nat) (is : List BItem) : List Pred := is.flatMap fun
  | .method _ => []
  | .assoc n bs => bs.map (wantedOf w n)

/-- The types of the trait bounds. -/
def boundTypes (is : List BItem) : List Ty := is.flatMap fun
  | .method _ => []
  | .assoc _ bs => bs.filterMap fun
    | .trait _ _ t => some t
    | .lifetime _ => none

/-- No associated type has a lifetime bound. -/
def NoLifetime (is : List BItem) : Prop := ∀ n bs, .assoc n bs ∈ is → ∀ l, .lifetime l ∉ bs

theorem bounds_eq : ∀ is : List BItem, bounds is = is.flatMap fun
    | .method _ => []
    | .assoc n bs => bs.map (dynBound n)
  | [] => rfl
  | .method _ :: is => by simp [bounds, bounds_eq is]
  | .assoc _ _ :: is => by simp [bounds, bounds_eq is]

theorem assoc_mem (is : List BItem) (n : Nat) (bs : List Bound) (h : .assoc n bs ∈ is) : assocTy n ∈ sdts is := by
  refine ((C65_parameters _ _).2 _).2 (.inl ⟨n, ?_, rfl⟩)
  induction is with
  | nil => cases h
  | cons i is ih =>
    rcases List.mem_cons.1 h with rfl | h
    · simp [BItem.item, assocs]
    · have := ih h
      cases i <;> simp [BItem.item, assocs, this]

theorem vtBounds_append (s : List Ty) : ∀ a b : List DynBound, vtBounds s (a ++ b) = (vtBounds s a).bind fun x => (vtBounds s b).map (x ++ ·)
  | [], b => by cases h : vtBounds s b <;> simp [vtBounds, h]
  | c :: a, b => by
    simp only [List.cons_append, vtBounds, vtBounds_append s a b]
    cases vtBound s c <;> cases vtBounds s a <;> cases vtBounds s b <;> simp

theorem vtBounds_read (w : Nat) (s : List Ty) (rest : List Tok) (rps : List Pred) (hrest : clause rest = some rps) : ∀ is : List BItem,
    (∀ n bs, .assoc n bs ∈ is → assocTy n ∈ s) → (∀ t ∈ boundTypes is, User t ∧ ∀ u ∈ selfDependent t, u ∈ s) → NoLifetime is →
    ∃ toks ps, vtBounds s (bounds is) = some toks ∧ clause (toks ++ rest) = some (ps ++ rps) ∧
      ∀ σ : Nat → Ty, (∀ n t, s[n]? = some t → σ n = .arbitrary w t) → ps.map (instPred σ) = wanted w is
  | [], _, _, _ => ⟨[], [], rfl, by simpa using hrest, fun _ _ => rfl⟩
  | .method m :: is, h1, h2, h3 => by
    obtain ⟨toks, ps, e1, e2, e3⟩ := vtBounds_read w s rest rps hrest is (fun n bs h => h1 n bs (by simp [h]))
      (fun t h => h2 t (by simpa [boundTypes] using h)) (fun n bs h => h3 n bs (by simp [h]))
    exact ⟨toks, ps, by simpa [bounds] using e1, e2, fun σ hσ => by simpa [wanted] using e3 σ hσ⟩
  | .assoc n [] :: is, h1, h2, h3 => by
    obtain ⟨toks, ps, e1, e2, e3⟩ := vtBounds_read w s rest rps hrest is (fun n bs h => h1 n bs (by simp [h]))
      (fun t h => h2 t (by simpa [boundTypes] using h)) (fun n bs h => h3 n bs (by simp [h]))
    exact ⟨toks, ps, by simpa [bounds] using e1, e2, fun σ hσ => by simpa [wanted] using e3 σ hσ⟩
  | .assoc n (.lifetime l :: bs) :: is, _, _, h3 => absurd (List.mem_cons_self) (h3 n _ (List.mem_cons_self) l)
  | .assoc n (.trait m b t :: bs) :: is, h1, h2, h3 => by
    obtain ⟨toks, ps, e1, e2, e3⟩ := vtBounds_read w s rest rps hrest (.assoc n bs :: is)
      (fun k cs h => by
        rcases List.mem_cons.1 h with h | h
        · cases h; exact h1 n _ (List.mem_cons_self)
        · exact h1 k cs (by simp [h]))
      (fun t h => h2 t (by
        simp only [boundTypes, List.flatMap_cons, List.filterMap_cons, List.mem_append, List.mem_cons] at h ⊢
        rcases h with h | h
        · exact .inl (.inr h)
        · exact .inr h))
      (fun k cs h l hl => by
        rcases List.mem_cons.1 h with h | h
        · cases h; exact h3 n _ (List.mem_cons_self) l (by simp [hl])
        · exact h3 k cs (by simp [h]) l hl)
    have ht := h2 t (by simp [boundTypes])
    obtain ⟨t', et⟩ := unselfed_total (s := s) t ht.2
    obtain ⟨k, hk⟩ := Option.isSome_iff_exists.1 (find_mem.2 (h1 n _ (List.mem_cons_self)))
    refine ⟨.ty (.path (.unselfed k) .none .none) :: .colon :: binder b ++ [.ty t', .comma] ++ toks,
      ⟨none, .path (.unselfed k) .none .none, [.trait b t']⟩ :: ps, ?_, ?_, ?_⟩
    · simp only [bounds, List.map_cons, List.cons_append, vtBounds] at e1 ⊢
      simp [vtBound, dynBound, unselfed, hk, et, e1]
    · have := clause_cons (.path (.unselfed k) .none .none) b t' (toks ++ rest) _ e2
      simpa using this
    · intro σ hσ
      have e3' := e3 σ hσ
      have i1 := inst_unselfed hσ t t' ht.1 et
      have i2 := hσ k _ (find_some hk)
      simp only [wanted, List.flatMap_cons, List.map_cons, List.cons_append] at e3' ⊢
      rw [e3']
      simp [instPred, wantedOf, i1, inst, i2, assocTy]

/-- The `where` clause of the vtable requires exactly the bounds of the associated types of the trait, in their order, as long as none is a lifetime and
they name no type of `Self` other than those of the trait and of its methods. -/
theorem C87_where_partial (w : Nat) (is : List BItem) (hu : ∀ t ∈ boundTypes is, User t ∧ ∀ u ∈ selfDependent t, u ∈ sdts is) (hl : NoLifetime is) :
    ∃ toks ps, vtBounds (sdts is) (bounds is) = some toks ∧ clause toks = some ps ∧
      ∀ σ : Nat → Ty, (∀ n t, (sdts is)[n]? = some t → σ n = .arbitrary w t) → ps.map (instPred σ) = wanted w is := by
  obtain ⟨toks, ps, h1, h2, h3⟩ := vtBounds_read w (sdts is) [] [] rfl is (assoc_mem is) hu hl
  exact ⟨toks, ps, h1, by simpa using h2, h3⟩

theorem clause_outlive (l : Lt) (rest : List Tok) (rps : List Pred) (h : clause rest = some rps) : ∀ ts : List Ty,
    clause (outlive l ts ++ rest) = some (ts.map (fun t => ⟨none, t, [.lifetime l]⟩) ++ rps)
  | [] => by simpa [outlive] using h
  | t :: ts => by
    have := clause_lt t l _ _ (clause_outlive l rest rps h ts)
    simpa [outlive] using this

/-- The vtable of an implementor is there whenever the bounds of the associated types hold, and all types live as long as the vtable. -/
theorem C87_constructor_partial (w : Nat) (is : List BItem) (implementor asTrait : Ty) (types : List Ty) (l : Lt)
    (hu : ∀ t ∈ boundTypes is, User t ∧ ∀ u ∈ selfDependent t, u ∈ sdts is) (hl : NoLifetime is) :
    ∃ toks ps, ctorBounds implementor asTrait types l (sdts is) (bounds is) = some toks ∧
      clause toks = some (⟨none, implementor, [.trait none asTrait]⟩ :: (ps ++
        (types ++ (List.range (sdts is).length).map fun n => Ty.path (.unselfed n) .none .none).map fun t => ⟨none, t, [.lifetime l]⟩)) ∧
      ∀ σ : Nat → Ty, (∀ n t, (sdts is)[n]? = some t → σ n = .arbitrary w t) → ps.map (instPred σ) = wanted w is := by
  have hr := clause_outlive l _ _ (clause_outlive l [] [] rfl ((List.range (sdts is).length).map fun n => Ty.path (.unselfed n) .none .none)) types
  obtain ⟨toks, ps, h1, h2, h3⟩ := vtBounds_read w (sdts is) _ _ hr is (assoc_mem is) hu hl
  refine ⟨_, ps, by rw [ctorBounds, h1]; rfl, ?_, h3⟩
  have := clause_cons implementor none asTrait _ _ h2
  simpa [binder] using this

theorem vtBounds_head (s : List Ty) (b : DynBound) (bs : List DynBound) (toks : List Tok) (h : vtBounds s (b :: bs) = some toks) : ∃ t r, toks = .ty t :: r := by
  simp only [vtBounds, Option.bind_eq_some_iff, Option.map_eq_some_iff] at h
  obtain ⟨x, hx, y, -, rfl⟩ := h
  simp only [vtBound, Option.bind_eq_some_iff] at hx
  obtain ⟨t, -, hx⟩ := hx
  cases hb : b.bound with
  | inl u =>
    simp only [hb, Option.map_eq_some_iff] at hx
    obtain ⟨u', -, rfl⟩ := hx
    exact ⟨_, _, rfl⟩
  | inr l =>
    simp only [hb, Option.some.injEq] at hx
    subst hx
    exact ⟨_, _, rfl⟩

theorem vtBounds_stuck (s : List Ty) (t : Ty) (rest : List Tok) : ∀ (bs : List DynBound) (toks : List Tok), vtBounds s bs = some toks →
    (∃ b ∈ bs, ∃ l, b.bound = .inr l) → stuck (toks ++ .ty t :: rest) = true
  | [], _, _, ⟨_, h, _⟩ => by cases h
  | b :: bs, toks, h, hl => by
    have h' := h
    simp only [vtBounds, Option.bind_eq_some_iff, Option.map_eq_some_iff] at h
    obtain ⟨x, hx, y, hy, rfl⟩ := h
    by_cases hb : ∃ l, b.bound = .inr l
    · obtain ⟨l, hb⟩ := hb
      simp only [vtBound, hb, Option.bind_eq_some_iff, Option.some.injEq] at hx
      obtain ⟨u, -, rfl⟩ := hx
      cases bs with
      | nil =>
        cases hy
        exact stuck_of [.ty u, .colon] l t rest
      | cons c cs =>
        obtain ⟨v, r, rfl⟩ := vtBounds_head s c cs y hy
        simpa using stuck_of [.ty u, .colon] l v (r ++ .ty t :: rest)
    · obtain ⟨c, hc, l, hl⟩ := hl
      rw [List.append_assoc]
      refine stuck_append _ _ (vtBounds_stuck s t rest bs y hy ⟨c, ?_, l, hl⟩)
      rcases List.mem_cons.1 hc with rfl | hc
      · exact absurd ⟨l, hl⟩ hb
      · exact hc

/-- No trait with a lifetime bound on an associated type is accepted: there is no comma after such bounds, and in the `where` clause of the constructor of
vtables others follow. -/
theorem C87_lifetime_refuted (is : List BItem) (n : Nat) (bs : List Bound) (l : Lt) (hn : .assoc n bs ∈ is) (hl : .lifetime l ∈ bs)
    (implementor asTrait : Ty) (types : List Ty) (l' : Lt) (toks : List Tok)
    (h : ctorBounds implementor asTrait types l' (sdts is) (bounds is) = some toks) : clause toks = none := by
  apply clause_stuck
  simp only [ctorBounds, Option.map_eq_some_iff] at h
  obtain ⟨b, hb, rfl⟩ := h
  have hmem : ∃ b ∈ bounds is, ∃ l, b.bound = .inr l := by
    refine ⟨dynBound n (.lifetime l), ?_, l, rfl⟩
    rw [bounds_eq, List.mem_flatMap]
    exact ⟨_, hn, List.mem_map.2 ⟨_, hl, rfl⟩⟩
  have hpos : (sdts is).length ≠ 0 := by
    have := assoc_mem is n bs hn
    intro h0
    rw [List.length_eq_zero_iff.1 h0] at this
    cases this
  obtain ⟨t, r, e⟩ : ∃ t r, outlive l' types ++ outlive l' ((List.range (sdts is).length).map fun n => Ty.path (.unselfed n) .none .none) = .ty t :: r := by
    cases types with
    | cons t ts => exact ⟨_, _, rfl⟩
    | nil =>
      obtain ⟨k, hk⟩ := Nat.exists_eq_succ_of_ne_zero hpos
      rw [hk, List.range_succ_eq_map]
      exact ⟨_, _, rfl⟩
  have := vtBounds_stuck (sdts is) t r _ b hb hmem
  rw [← e] at this
  simpa using stuck_append [.ty implementor, .colon, .ty asTrait, .comma] _ this

/-! ### Associated types of `{Trait}Dyn` -/

/-- A bound, without `?`. -/
def Bound.plain : Bound → B
  | .trait _ b t => .trait b t
  | .lifetime l => .lifetime l

/-- The names of the associated types. -/
def names (is : List BItem) : List Nat := is.filterMap fun
  | .assoc n _ => some n
  | .method _ => none

/-- Bounds with `+` between them. -/
def join : List (List Tok) → List Tok
  | [] => []
  | [a] => a
  | a :: b :: l => a ++ .plus :: join (b :: l)

theorem addBound_self (n : Nat) (acc : Option (List Tok)) (b : Bound) : addBound (assocTy n) acc (dynBound n b) =
    some (match acc with
      | some acc => acc ++ .plus :: sdtBound (dynBound n b)
      | none => sdtBound (dynBound n b)) := by
  have : tyEq (assocTy n) (assocTy n) = true := by simp [assocTy, tyEq, otyEq]
  cases b <;> cases acc <;> simp [addBound, dynBound, this]

theorem addBound_other (n m : Nat) (h : m ≠ n) (acc : Option (List Tok)) (b : Bound) : addBound (assocTy n) acc (dynBound m b) = acc := by
  have : tyEq (assocTy m) (assocTy n) = false := by simp [assocTy, tyEq, h]
  cases b <;> simp [addBound, dynBound, this]

theorem fold_self (n : Nat) : ∀ (bs : List Bound) (acc : List Tok), (bs.map (dynBound n)).foldl (addBound (assocTy n)) (some acc) =
    some (join (acc :: bs.map fun b => sdtBound (dynBound n b)))
  | [], acc => rfl
  | b :: bs, acc => by
    rw [List.map_cons, List.foldl_cons, addBound_self, fold_self n bs]
    cases bs <;> simp [join]

theorem fold_others (n : Nat) : ∀ (is : List BItem) (acc : Option (List Tok)), n ∉ names is → (bounds is).foldl (addBound (assocTy n)) acc = acc
  | [], _, _ => rfl
  | .method _ :: is, acc, h => fold_others n is acc (by simpa [names] using h)
  | .assoc m bs :: is, acc, h => by
    have hm : m ≠ n ∧ n ∉ names is := by
      simp only [names, List.filterMap_cons, List.mem_cons, not_or] at h
      exact ⟨fun e => h.1 e.symm, h.2⟩
    rw [bounds, List.foldl_append, fold_others n is _ hm.2]
    induction bs generalizing acc with
    | nil => rfl
    | cons b bs ih =>
      rw [List.map_cons, List.foldl_cons, addBound_other n m hm.1]
      exact ih acc (by simpa [names] using h)

theorem fold_other (n m : Nat) (hm : m ≠ n) : ∀ (cs : List Bound) (acc : Option (List Tok)), (cs.map (dynBound m)).foldl (addBound (assocTy n)) acc = acc
  | [], _ => rfl
  | c :: cs, acc => by
    rw [List.map_cons, List.foldl_cons, addBound_other n m hm]
    exact fold_other n m hm cs acc

theorem fold_all (n : Nat) (bs : List Bound) : ∀ is : List BItem, (names is).Nodup → .assoc n bs ∈ is →
    (bounds is).foldl (addBound (assocTy n)) none = if bs = [] then none else some (join (bs.map fun b => sdtBound (dynBound n b)))
  | .method _ :: is, hn, h => fold_all n bs is (by simpa [names] using hn) (by simpa using h)
  | .assoc m cs :: is, hn, h => by
    have hn' : m ∉ names is ∧ (names is).Nodup := by simpa [names] using hn
    rw [bounds, List.foldl_append]
    rcases List.mem_cons.1 h with h | h
    · cases h
      rw [fold_others n is _ hn'.1]
      cases bs with
      | nil => rfl
      | cons b bs =>
        rw [List.map_cons, List.foldl_cons, addBound_self, fold_self]
        simp
    · have hm : m ≠ n := by
        rintro rfl
        exact hn'.1 (List.mem_filterMap.2 ⟨_, h, rfl⟩)
      have : ∀ acc, (cs.map (dynBound m)).foldl (addBound (assocTy n)) acc = acc := by
        exact fold_other n m hm cs
      rw [this]
      exact fold_all n bs is hn'.2 h

theorem readBounds_join (n : Nat) : ∀ (bs : List Bound) (k : Nat), bs.length ≤ k →
    readBounds k (join (bs.map fun b => sdtBound (dynBound n b))) = (bs.map Bound.plain, [])
  | [], k, _ => by cases k <;> simp [readBounds, join, readBound]
  | [b], k + 1, _ => by
    cases b with
    | trait m o t => cases o <;> simp [readBounds, join, sdtBound, dynBound, readBound, binder, Bound.plain]
    | lifetime l => simp [readBounds, join, sdtBound, dynBound, readBound, Bound.plain]
  | b :: c :: bs, k + 1, h => by
    have ih := readBounds_join n (c :: bs) k (by simpa using h)
    simp only [List.map_cons] at ih
    cases b with
    | trait m o t => cases o <;> simp [readBounds, join, sdtBound, dynBound, readBound, binder, Bound.plain] at ih ⊢ <;> simp [ih]
    | lifetime l => simp [readBounds, join, sdtBound, dynBound, readBound, Bound.plain] at ih ⊢; simp [ih]

theorem length_join (n : Nat) : ∀ bs : List Bound, bs.length ≤ (join (bs.map fun b => sdtBound (dynBound n b))).length
  | [] => by simp
  | [b] => by
    cases b with
    | trait m o t => cases o <;> simp [join, sdtBound, dynBound, binder]
    | lifetime l => simp [join, sdtBound, dynBound]
  | b :: c :: bs => by
    have := length_join n (c :: bs)
    simp only [List.map_cons, List.length_cons, join, List.length_append] at this ⊢
    omega

/-- The associated types of `{Trait}Dyn` have all bounds of those of the trait, also lifetimes, in their order, and no others. -/
theorem C87_dyn_types (is : List BItem) (hn : (names is).Nodup) (n : Nat) (bs : List Bound) (h : .assoc n bs ∈ is) :
    (bs = [] → sdtBounds (bounds is) (.path (.user n) .none .none) = []) ∧
    (bs ≠ [] → ∃ ts, sdtBounds (bounds is) (.path (.user n) .none .none) = .colon :: ts ∧ readBounds ts.length ts = (bs.map Bound.plain, [])) := by
  have := fold_all n bs is hn h
  constructor
  · rintro rfl
    simp only [if_true] at this
    simp only [sdtBounds]
    rw [← assocTy, this]
  · intro hne
    rw [if_neg hne] at this
    refine ⟨_, by rw [sdtBounds, ← assocTy, this], readBounds_join n bs _ (length_join n bs)⟩

/-- The item without `?` on bounds. -/
def unmaybe : BItem → BItem
  | .method m => .method m
  | .assoc n bs => .assoc n (bs.map fun
    | .trait _ b t => .trait false b t
    | .lifetime l => .lifetime l)

/-- `?Sized` is taken for `Sized`: nothing that is generated depends on the `?`. -/
theorem C87_maybe_refuted (is : List BItem) : bounds (is.map unmaybe) = bounds is ∧ sdts (is.map unmaybe) = sdts is := by
  constructor
  · rw [bounds_eq, bounds_eq, List.flatMap_map]
    congr 1
    funext i
    cases i with
    | method m => rfl
    | assoc n bs =>
      simp only [unmaybe, List.map_map]
      congr 1
      funext b
      cases b <;> rfl
  · have : (is.map unmaybe).map BItem.item = is.map BItem.item := by
      rw [List.map_map]
      congr 1
      funext i
      cases i <;> rfl
    rw [sdts, this, sdts]

/-- Bounds that name a type of a supertrait by `Self::` make the macro panic. -/
theorem C87_super_refuted : vtBounds (sdts [.assoc 0 [.trait false none (.path (.user 5) (.angle (.type (.selfRef (.path (.user 1) .none .none)) .nil)) .none)]])
    (bounds [.assoc 0 [.trait false none (.path (.user 5) (.angle (.type (.selfRef (.path (.user 1) .none .none)) .nil)) .none)]]) = none := by
  decide +kernel

/-! ### Parameters -/

/-- What may be between the angle brackets of an `impl`: parameters without defaults. -/
def Declares : GArg → Prop
  | .param (.type _ _ (some _)) => False
  | .param (.const _ _ (some _)) => False
  | _ => True

/-- What may be between the angle brackets of a type: lifetimes and types by their names, and constants by their names. -/
def Uses : GArg → Prop
  | .param (.lifetime _ []) => True
  | .ident _ => True
  | .unselfed _ => True
  | _ => False

theorem mem_loop (bounded : Bool) (P : GArg → Prop) (hu : ∀ n, P (.unselfed n)) : ∀ (ps : List GParam) (o : Option Nat),
    (∀ g ∈ genericsLoop bounded o ps, P g) ↔ ∀ p ∈ ps, P (match p with
      | .type t b d => if bounded then .param (.type t b d) else .ident t
      | p => .param p)
  | [], none => by simp [genericsLoop]
  | [], some n => by
    simp only [genericsLoop, List.mem_map, List.mem_range, List.not_mem_nil, false_implies, implies_true, iff_true]
    rintro g ⟨k, -, rfl⟩
    exact hu k
  | .lifetime l b :: ps, o => by
    have := mem_loop bounded P hu ps o
    cases o <;> simp [genericsLoop, this]
  | .type t b d :: ps, none => by
    have := mem_loop bounded P hu ps none
    simp [genericsLoop, this]
  | .type t b d :: ps, some n => by
    have := mem_loop bounded P hu ps none
    simp only [genericsLoop, List.mem_append, List.mem_cons, List.mem_map, List.mem_range, forall_eq_or_imp]
    constructor
    · intro h
      exact ⟨h _ (.inr (.inl rfl)), this.1 fun g hg => h g (.inr (.inr hg))⟩
    · rintro ⟨h1, h2⟩ g (⟨k, -, rfl⟩ | rfl | hg)
      · exact hu k
      · exact h1
      · exact this.2 h2 g hg
  | .const c t d :: ps, o => by
    have := mem_loop bounded P hu ps o
    cases o <;> simp [genericsLoop, this]

/-- The traits whose generated implementations have legal parameters: those without constants, without bounds on lifetimes and without default types. -/
theorem C87_params (n : Nat) (ps : List GParam) :
    ((∀ g ∈ generics true n ps, Declares g) ∧ (∀ g ∈ generics false n ps, Uses g)) ↔
    ∀ p ∈ ps, (∃ l, p = .lifetime l []) ∨ ∃ t bs, p = .type t bs none := by
  rw [generics, generics, mem_loop true Declares (fun _ => trivial), mem_loop false Uses (fun _ => trivial), ← forall_and]
  apply forall_congr'
  intro p
  rw [← forall_and]
  apply forall_congr'
  intro _
  cases p with
  | lifetime l b => cases b <;> simp [Declares, Uses]
  | type t b d => cases d <;> simp [Declares, Uses]
  | const c t d => cases d <;> simp [Declares, Uses]

/-- Traits with a default type, with a bound on a lifetime or with a constant are not accepted, though Rust's are. -/
theorem C87_params_refuted (n : Nat) (ps : List GParam) (p : GParam) (hp : p ∈ ps)
    (h : (∃ t bs d, p = .type t bs (some d)) ∨ (∃ l b bs, p = .lifetime l (b :: bs)) ∨ ∃ c t d, p = .const c t d) :
    ¬ ((∀ g ∈ generics true n ps, Declares g) ∧ (∀ g ∈ generics false n ps, Uses g)) := by
  rw [C87_params]
  intro h'
  rcases h' p hp with ⟨l, rfl⟩ | ⟨t, bs, rfl⟩ <;> rcases h with ⟨_, _, _, h⟩ | ⟨_, _, _, h⟩ | ⟨_, _, _, h⟩ <;> cases h

/-- Bounds that are written with the parameters are on the parameters of what is generated. -/
theorem C87_inline (n : Nat) (ps : List GParam) (p : GParam) : .param p ∈ implGenerics n ps ↔ p ∈ ps := by
  unfold implGenerics
  cases p <;> simp [List.mem_filter, GParam.isLifetime, GParam.isType, GParam.isConst]

/-- What is generated has each parameter of the trait as often as the trait has it, and each parameter that stands for a type of `Self` once. -/
theorem C87_once (n : Nat) (ps : List GParam) :
    (∀ p, (implGenerics n ps).count (.param p) = ps.count p) ∧
    ∀ k, (implGenerics n ps).count (.unselfed k) = if k < n then 1 else 0 := by
  have hinj : ∀ (l : List GParam) (p : GParam), (l.map GArg.param).count (.param p) = l.count p := by
    intro l p
    induction l with
    | nil => rfl
    | cons a l ih => simp [List.count_cons, ih]
  have hnone : ∀ (l : List GParam) (k : Nat), (l.map GArg.param).count (.unselfed k) = 0 := fun l k => List.count_eq_zero.2 (by simp)
  have hnone' : ∀ (p : GParam), ((List.range n).map GArg.unselfed).count (.param p) = 0 := fun p => List.count_eq_zero.2 (by simp)
  have hf : ∀ (q : GParam → Bool) (p : GParam), (ps.filter q).count p = if q p then ps.count p else 0 := by
    intro q p
    split
    · next h => exact List.count_filter h
    · next h => exact List.count_eq_zero.2 (by simp [List.mem_filter, h])
  constructor
  · intro p
    simp only [implGenerics, List.count_append, hnone', hinj, hf]
    cases p <;> simp [GParam.isLifetime, GParam.isType, GParam.isConst]
  · intro k
    simp only [implGenerics, List.count_append, hnone]
    have : ∀ l : List Nat, (l.map GArg.unselfed).count (.unselfed k) = l.count k := by
      intro l
      induction l with
      | nil => rfl
      | cons a l ih => simp [List.count_cons, ih]
    rw [this]
    simp [List.count_range]

/-- The parameters that stand for types of `Self` are all there, in their order, wherever the types of the trait are. -/
theorem C87_unselfed (bounded : Bool) (n : Nat) (ps : List GParam) :
    ((generics bounded n ps).filterMap fun | .unselfed k => some k | _ => none) = List.range n := by
  have hr : ((List.range n).map GArg.unselfed).filterMap (fun | .unselfed k => some k | _ => none) = List.range n := by
    rw [List.filterMap_map]
    exact List.filterMap_some
  have h : ∀ (ps : List GParam) (o : Option Nat), (genericsLoop bounded o ps).filterMap (fun | .unselfed k => some k | _ => none) =
      match o with
      | some n => ((List.range n).map GArg.unselfed).filterMap (fun | .unselfed k => some k | _ => none)
      | none => [] := by
    intro ps
    induction ps with
    | nil => intro o; cases o <;> rfl
    | cons p ps ih =>
      intro o
      cases p <;> cases o <;> cases bounded <;> simp_all [genericsLoop]
  rw [generics, h]
  exact hr

/-- Bounds in the `where` clause of a trait are dropped: nothing of what is generated depends on them. -/
theorem C87_where_refuted (t : Trait) (preds : List (List Tok)) : { t with where_ := preds }.compound = t.compound := rfl

/-! ### Examples -/

/-- `trait T { type A: Copy + for<'a> Tr<'a, Self::B>; type B; }` -/
def exItems : List BItem :=
  [.assoc 0 [.trait false none (.path (.user 7) .none .none), .trait false (some 0) (.path (.user 8) (.angle (.type (.selfRef (.path (.user 1) .none .none)) .nil)) .none)],
   .assoc 1 []]

example : (∀ t ∈ boundTypes exItems, User t ∧ ∀ u ∈ selfDependent t, u ∈ sdts exItems) ∧ NoLifetime exItems ∧ (names exItems).Nodup := by
  refine ⟨?_, ?_, by decide⟩
  · intro t ht
    simp only [boundTypes, exItems, List.flatMap_cons, List.flatMap_nil, List.filterMap_cons, List.filterMap_nil, List.append_nil, List.mem_cons, List.not_mem_nil,
      or_false] at ht
    rcases ht with rfl | rfl
    · exact ⟨by simp [User, UserArgs, UserO], by decide +kernel⟩
    · exact ⟨by simp [User, UserArgs, UserGens, UserO], by decide +kernel⟩
  · intro n bs h l
    simp only [exItems, List.mem_cons, List.not_mem_nil, or_false, BItem.assoc.injEq] at h
    rcases h with ⟨-, rfl⟩ | ⟨-, rfl⟩ <;> simp

example : (vtBounds (sdts exItems) (bounds exItems)).bind clause =
    some [⟨none, .path (.unselfed 0) .none .none, [.trait none (.path (.user 7) .none .none)]⟩,
      ⟨none, .path (.unselfed 0) .none .none, [.trait (some 0) (.path (.user 8) (.angle (.type (.path (.unselfed 1) .none .none) .nil)) .none)]⟩] := by
  decide +kernel

/-- The clause of the vtable itself would do if the lifetime came last. -/
example : (vtBounds (sdts [.assoc 0 [.lifetime .static]]) (bounds [.assoc 0 [.lifetime .static]])).bind clause =
    some [⟨none, .path (.unselfed 0) .none .none, [.lifetime .static]⟩] := by decide +kernel

example : clause [.binder 1, .ty .unit, .colon, .lt .static, .plus, .ty .never, .plus, .comma] =
    some [⟨some 1, .unit, [.lifetime .static, .trait none .never]⟩] := by decide +kernel

end Verif.Props.Bounds
