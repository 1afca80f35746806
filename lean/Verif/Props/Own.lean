import Verif.Sync.Own
/-! C102: `Arc`s own their value and their memory, whichever way they are made, shared, converted and taken apart. -/
set_option linter.unusedSimpArgs false
namespace Verif.Props.Own
open Verif.Sync.Own

/-! ### Specification -/

/-- How many strong handles point to an address. -/
def strongs (c : Cell) : Nat := c.n .typed + c.n .uninit + c.n .raw + c.n .dyn + c.n .lost
/-- How many of them have a value. -/
def owners (c : Cell) : Nat := c.n .typed + c.n .raw + c.n .dyn
/-- How many weak handles point to an address. -/
def weaks (c : Cell) : Nat := c.n .weak + c.n .weakUninit + c.n .lostWeak
/-- The value stored at an address. -/
def stored (w : World) (p : Nat) : Option Nat := (w.cells p).blk.bind (·.val)

/-! ### Invariant -/

/-- What holds of each address. -/
def CellOK (c : Cell) : Prop :=
  match c.blk with
  | none => ∀ k, c.n k = 0
  | some b => b.strong = strongs c ∧ (b.strong = 0 → b.weak = weaks c) ∧ (0 < b.strong → b.weak = weaks c + 1) ∧ 0 < b.weak ∧
      (0 < owners c + c.n .weak → c.n .uninit + c.n .weakUninit + c.n .lost = 0) ∧
      match b.val with
      | none => owners c = 0
      | some _ => 0 < owners c

/-- Where the values are: `f` tells what is stored at each address. -/
structure Placed (f : Nat → Option Nat) (held dropped : Nat → Nat) (created : Nat → Bool) : Prop where
  stored : ∀ p v, f p = some v → created v = true ∧ held v = 0 ∧ dropped v = 0
  once : ∀ p q v, f p = some v → f q = some v → p = q
  unborn : ∀ v, created v = false → held v = 0 ∧ dropped v = 0
  somewhere : ∀ v, created v = true → held v + dropped v = 1 ∨ ∃ p, f p = some v

structure Inv (w : World) : Prop where
  cells : ∀ p, CellOK (w.cells p)
  placed : Placed (stored w) w.held w.dropped w.created

def cval (c : Cell) : Option Nat := c.blk.bind (·.val)

theorem stored_set (w : World) (p : Nat) (c : Cell) :
    stored (w.set p c) = fun q => if q = p then cval c else stored w q := by
  funext q
  by_cases h : q = p <;> simp [stored, World.set, cval, h]

theorem stored_eq {w w' : World} (h : w'.cells = w.cells) : stored w' = stored w := by
  funext q; simp [stored, h]

/-! Moves of values. -/

theorem Placed.same {f g : Nat → Option Nat} {h d : Nat → Nat} {c : Nat → Bool} (i : Placed f h d c) (e : g = f) : Placed g h d c := e ▸ i

/-- A value is made. -/
theorem Placed.make {f : Nat → Option Nat} {h d : Nat → Nat} {c : Nat → Bool} (i : Placed f h d c) {v : Nat} (hv : c v = false) :
    Placed f (fun u => if u = v then h u + 1 else h u) d (fun u => u = v || c u) := by
  refine ⟨fun p u hu => ?_, i.once, fun u hu => ?_, fun u hu => ?_⟩
  · have := i.stored p u hu
    have hne : u ≠ v := by rintro rfl; simp [hv] at this
    simp [hne, this]
  · have hu' : u ≠ v ∧ c u = false := by simpa using hu
    simpa [hu'.1] using i.unborn u hu'.2
  · by_cases e : u = v
    · subst e; left; simp [i.unborn _ hv]
    · simpa [e] using i.somewhere u (by simpa [e] using hu)

/-- A value that the program owned is destroyed. -/
theorem Placed.drop {f : Nat → Option Nat} {h d : Nat → Nat} {c : Nat → Bool} (i : Placed f h d c) {v : Nat} (hv : 0 < h v) :
    Placed f (fun u => if u = v then h u - 1 else h u) (fun u => if u = v then d u + 1 else d u) c := by
  have notStored : ∀ p, f p ≠ some v := fun p e => by have := i.stored p v e; omega
  have hc : c v = true := by
    cases e : c v with
    | true => rfl
    | false => have := i.unborn v e; omega
  have hs : h v + d v = 1 := by
    rcases i.somewhere v hc with e | ⟨p, e⟩
    · exact e
    · exact absurd e (notStored p)
  refine ⟨fun p u hu => ?_, i.once, fun u hu => ?_, fun u hu => ?_⟩
  · have hne : u ≠ v := by rintro rfl; exact notStored p hu
    simpa [hne] using i.stored p u hu
  · have hne : u ≠ v := by rintro rfl; simp [hc] at hu
    simpa [hne] using i.unborn u hu
  · by_cases e : u = v
    · subst e; left; simp; omega
    · simpa [e] using i.somewhere u hu

/-- A value that the program owned is stored. -/
theorem Placed.store {f : Nat → Option Nat} {h d : Nat → Nat} {c : Nat → Bool} (i : Placed f h d c) {v p : Nat} (hv : 0 < h v)
    (hp : f p = none) : Placed (fun q => if q = p then some v else f q) (fun u => if u = v then h u - 1 else h u) d c := by
  have notStored : ∀ p, f p ≠ some v := fun p e => by have := i.stored p v e; omega
  have hc : c v = true := by
    cases e : c v with
    | true => rfl
    | false => have := i.unborn v e; omega
  have hs : h v + d v = 1 := by
    rcases i.somewhere v hc with e | ⟨p, e⟩
    · exact e
    · exact absurd e (notStored p)
  refine ⟨fun q u hu => ?_, fun q r u hq hr => ?_, fun u hu => ?_, fun u hu => ?_⟩
  · by_cases e : q = p
    · have : v = u := by simpa [e] using hu
      subst this; simp [hc]; omega
    · have hu' : f q = some u := by simpa [e] using hu
      have hne : u ≠ v := by rintro rfl; exact notStored q hu'
      simpa [hne] using i.stored q u hu'
  · by_cases e : q = p <;> by_cases e' : r = p
    · rw [e, e']
    · have h1 : v = u := by simpa [e] using hq
      have h2 : f r = some u := by simpa [e'] using hr
      exact absurd (h1 ▸ h2) (notStored r)
    · have h1 : v = u := by simpa [e'] using hr
      have h2 : f q = some u := by simpa [e] using hq
      exact absurd (h1 ▸ h2) (notStored q)
    · exact i.once q r u (by simpa [e] using hq) (by simpa [e'] using hr)
  · have hne : u ≠ v := by rintro rfl; simp [hc] at hu
    simpa [hne] using i.unborn u hu
  · by_cases e : u = v
    · subst e; right; exact ⟨p, by simp⟩
    · rcases i.somewhere u hu with h1 | ⟨q, h1⟩
      · left; simpa [e] using h1
      · right
        have : q ≠ p := by rintro rfl; simp [hp] at h1
        exact ⟨q, by simpa [this] using h1⟩

/-- A stored value is moved out to the program. -/
theorem Placed.unstore {f : Nat → Option Nat} {h d : Nat → Nat} {c : Nat → Bool} (i : Placed f h d c) {v p : Nat} (hp : f p = some v) :
    Placed (fun q => if q = p then none else f q) (fun u => if u = v then h u + 1 else h u) d c := by
  have hv := i.stored p v hp
  refine ⟨fun q u hu => ?_, fun q r u hq hr => ?_, fun u hu => ?_, fun u hu => ?_⟩
  · by_cases e : q = p
    · simp [e] at hu
    · have hu' : f q = some u := by simpa [e] using hu
      have hne : u ≠ v := by rintro rfl; exact e (i.once q p u hu' hp)
      simpa [hne] using i.stored q u hu'
  · by_cases e : q = p
    · simp [e] at hq
    · by_cases e' : r = p
      · simp [e'] at hr
      · exact i.once q r u (by simpa [e] using hq) (by simpa [e'] using hr)
  · have hne : u ≠ v := by rintro rfl; simp [hv.1] at hu
    simpa [hne] using i.unborn u hu
  · by_cases e : u = v
    · subst e; left; simp [hv.2]
    · rcases i.somewhere u hu with h1 | ⟨q, h1⟩
      · left; simpa [e] using h1
      · right
        have : q ≠ p := by rintro rfl; rw [hp] at h1; exact e (by simpa using h1.symm)
        exact ⟨q, by simpa [this] using h1⟩

/-- A stored value is destroyed. -/
theorem Placed.destroy {f : Nat → Option Nat} {h d : Nat → Nat} {c : Nat → Bool} (i : Placed f h d c) {v p : Nat} (hp : f p = some v) :
    Placed (fun q => if q = p then none else f q) h (fun u => if u = v then d u + 1 else d u) c := by
  have := (i.unstore hp).drop (v := v) (by simp)
  refine ⟨fun q u hu => ?_, this.once, fun u hu => ?_, fun u hu => ?_⟩
  · have := this.stored q u hu
    by_cases e : u = v <;> simp [e] at this ⊢; exact this
  · have := this.unborn u hu
    by_cases e : u = v <;> simp [e] at this ⊢; exact this
  · have := this.somewhere u hu
    by_cases e : u = v <;> simp [e] at this ⊢ <;> exact this

/-! Cells. -/

theorem CellOK.empty : CellOK .empty := fun _ => rfl

theorem cellOK_blk {c : Cell} (h : CellOK c) {k : Kind} (hk : 0 < c.n k) : ∃ b, c.blk = some b := by
  cases e : c.blk with
  | some b => exact ⟨b, rfl⟩
  | none => simp [CellOK, e] at h; have := h k; omega

/-- What `CellOK` says of a block, in numbers. -/
theorem cellOK_none {n : Kind → Nat} {s k : Nat} : CellOK ⟨some ⟨none, s, k⟩, n⟩ ↔
    (s = n .typed + n .uninit + n .raw + n .dyn + n .lost ∧ (s = 0 → k = n .weak + n .weakUninit + n .lostWeak) ∧
      (0 < s → k = n .weak + n .weakUninit + n .lostWeak + 1) ∧ 0 < k ∧
      (0 < n .typed + n .raw + n .dyn + n .weak → n .uninit + n .weakUninit + n .lost = 0) ∧ n .typed + n .raw + n .dyn = 0) := Iff.rfl

theorem cellOK_some {n : Kind → Nat} {s k v : Nat} : CellOK ⟨some ⟨some v, s, k⟩, n⟩ ↔
    (s = n .typed + n .uninit + n .raw + n .dyn + n .lost ∧ (s = 0 → k = n .weak + n .weakUninit + n .lostWeak) ∧
      (0 < s → k = n .weak + n .weakUninit + n .lostWeak + 1) ∧ 0 < k ∧
      (0 < n .typed + n .raw + n .dyn + n .weak → n .uninit + n .weakUninit + n .lost = 0) ∧ 0 < n .typed + n .raw + n .dyn) := Iff.rfl

theorem cellOK_free {n : Kind → Nat} : CellOK ⟨none, n⟩ ↔
    (n .typed = 0 ∧ n .uninit = 0 ∧ n .raw = 0 ∧ n .dyn = 0 ∧ n .lost = 0 ∧ n .weak = 0 ∧ n .weakUninit = 0 ∧ n .lostWeak = 0) := by
  constructor
  · intro h; exact ⟨h _, h _, h _, h _, h _, h _, h _, h _⟩
  · rintro ⟨h1, h2, h3, h4, h5, h6, h7, h8⟩ k
    cases k <;> assumption

macro "cell" : tactic => `(tactic| (
  simp only [cellOK_none, cellOK_some, cellOK_free, Cell.take, Cell.give, reduceIte, reduceCtorEq, false_imp_iff, true_and, imp_false] at *
  omega))

theorem dropWeak_spec {c : Cell} (h : CellOK c) {k : Kind} (hk : k = .weak ∨ k = .weakUninit) (hn : 0 < c.n k) :
    ∃ c', (c.take k).dropWeak = some c' ∧ CellOK c' ∧ cval c' = cval c := by
  obtain ⟨b, e⟩ := cellOK_blk h hn
  rcases c with ⟨blk, n⟩
  rcases b with ⟨val, s, wk⟩
  subst e
  by_cases e : wk = 1
  · subst e
    refine ⟨⟨none, ((Cell.mk none n).take k).n⟩, by simp [Cell.dropWeak, Cell.take], ?_, ?_⟩
    · cases val <;> rcases hk with rfl | rfl <;> cell
    · cases val with
      | none => rfl
      | some v => exfalso; rcases hk with rfl | rfl <;> cell
  · refine ⟨⟨some ⟨val, s, wk - 1⟩, ((Cell.mk none n).take k).n⟩, by simp [Cell.dropWeak, Cell.take, e], ?_, rfl⟩
    cases val <;> rcases hk with rfl | rfl <;> cell

theorem dropArc_spec {c : Cell} (h : CellOK c) {k : Kind} (hk : k = .typed ∨ k = .dyn ∨ k = .uninit) (hn : 0 < c.n k) (panics : Bool) :
    ∃ c' v, (c.take k).dropArc (k == .uninit) panics = .done c' v ∧ CellOK c' ∧
      ((v = none ∧ cval c' = cval c) ∨ (∃ u, v = some u ∧ cval c = some u ∧ cval c' = none)) := by
  obtain ⟨b, e⟩ := cellOK_blk h hn
  rcases c with ⟨blk, n⟩
  rcases b with ⟨val, s, wk⟩
  subst e
  by_cases e : s = 1
  · subst e
    cases val with
    | none =>
      rcases hk with rfl | rfl | rfl
      · exfalso; cell
      · exfalso; cell
      · by_cases e : wk = 1
        · subst e
          exact ⟨⟨none, ((Cell.mk none n).take .uninit).n⟩, none, by simp [Cell.dropArc, Cell.dropWeak, Cell.take], by cell, Or.inl ⟨rfl, rfl⟩⟩
        · exact ⟨⟨some ⟨none, 0, wk - 1⟩, ((Cell.mk none n).take .uninit).n⟩, none,
            by simp [Cell.dropArc, Cell.dropWeak, Cell.take, e], by cell, Or.inl ⟨rfl, rfl⟩⟩
    | some v =>
      have hk : k = .typed ∨ k = .dyn := by
        rcases hk with rfl | rfl | rfl
        · exact Or.inl rfl
        · exact Or.inr rfl
        · exfalso; cell
      have hb : (k == Kind.uninit) = false := by rcases hk with rfl | rfl <;> rfl
      cases panics with
      | true =>
        refine ⟨(Cell.mk (some ⟨none, 0, wk⟩) ((Cell.mk none n).take k).n).give .lostWeak, some v, by simp [Cell.dropArc, Cell.take, hb], ?_,
          Or.inr ⟨v, rfl, rfl, rfl⟩⟩
        rcases hk with rfl | rfl <;> cell
      | false =>
        by_cases e : wk = 1
        · subst e
          refine ⟨⟨none, ((Cell.mk none n).take k).n⟩, some v, by simp [Cell.dropArc, Cell.dropWeak, Cell.take, hb], ?_, Or.inr ⟨v, rfl, rfl, rfl⟩⟩
          rcases hk with rfl | rfl <;> cell
        · refine ⟨⟨some ⟨none, 0, wk - 1⟩, ((Cell.mk none n).take k).n⟩, some v, by simp [Cell.dropArc, Cell.dropWeak, Cell.take, e, hb], ?_,
            Or.inr ⟨v, rfl, rfl, rfl⟩⟩
          rcases hk with rfl | rfl <;> cell
  · refine ⟨⟨some ⟨val, s - 1, wk⟩, ((Cell.mk none n).take k).n⟩, none, by simp [Cell.dropArc, Cell.take, e], ?_, Or.inl ⟨rfl, rfl⟩⟩
    cases val <;> rcases hk with rfl | rfl | rfl <;> cell

/-! ### Every operation keeps the invariant -/

def Good : Out → Prop
  | .ok w | .unwound w | .aborted w => Inv w
  | .ub => False
  | .invalid => True

theorem Inv.set {w : World} (i : Inv w) {p : Nat} {c : Cell} (hc : CellOK c) (hv : cval c = stored w p) : Inv (w.set p c) := by
  refine ⟨fun q => ?_, ?_⟩
  · by_cases e : q = p
    · subst e; simpa [World.set] using hc
    · simpa [World.set, e] using i.cells q
  · refine i.placed.same ?_
    rw [stored_set]
    funext q
    by_cases e : q = p
    · subst e; simpa using hv
    · simp [e]

theorem Inv.setCell {w w' : World} (i : Inv w) {p : Nat} {c : Cell} (hw : w'.cells = w.cells) (hc : CellOK c) :
    ∀ q, CellOK ((w'.set p c).cells q) := by
  intro q
  by_cases e : q = p
  · subst e; simpa [World.set] using hc
  · simpa [World.set, e, hw] using i.cells q

theorem Inv.drop {w : World} (i : Inv w) {v : Nat} (hv : 0 < w.held v) : Inv ((w.unhold v).drop v) :=
  ⟨i.cells, i.placed.drop hv⟩

/-- A block is made for a value of the program. -/
theorem Inv.fresh {w : World} (i : Inv w) {v p : Nat} (hv : 0 < w.held v) (hp : (w.cells p).blk = none) :
    Inv ((w.unhold v).set p ({ w.cells p with blk := some ⟨some v, 1, 1⟩ }.give .typed)) := by
  have h := i.cells p
  refine ⟨i.setCell rfl ?_, ?_⟩
  · revert h hp
    rcases w.cells p with ⟨blk, n⟩
    simp only
    intros
    subst_vars
    cell
  · have := i.placed.store (p := p) hv (by simp [stored, hp])
    refine this.same ?_
    rw [stored_set]
    rfl

theorem Inv.freshEmpty {w : World} (i : Inv w) {p : Nat} (hp : (w.cells p).blk = none) (k : Kind) (hk : k = .uninit ∨ k = .lost) :
    Inv (w.set p ({ w.cells p with blk := some ⟨none, 1, 1⟩ }.give k)) := by
  have h := i.cells p
  refine i.set ?_ (by simp [cval, stored, hp, Cell.give])
  revert h hp
  rcases w.cells p with ⟨blk, n⟩
  simp only
  intros
  subst_vars
  rcases hk with rfl | rfl <;> cell

theorem good_construct {w : World} (i : Inv w) (c : Ctor) (p : Nat) : Good (w.ifVacant p (w.construct c p)) := by
  unfold World.ifVacant
  split
  case isFalse => trivial
  case isTrue hp =>
    have hp : (w.cells p).blk = none := by simpa using hp
    cases c with
    | init v =>
      simp only [World.construct]
      split
      · exact i.fresh ‹_› hp
      · trivial
    | fail => exact i.freshEmpty hp _ (Or.inl rfl)
    | panic => exact i.freshEmpty hp _ (Or.inr rfl)

theorem good_discard {w : World} (i : Inv w) (c : Ctor) : Good (w.discard c) := by
  cases c with
  | init v =>
    simp only [World.discard]
    split
    · exact i.drop ‹_›
    · trivial
  | fail => exact i
  | panic => exact i

theorem good_ended {w : World} (i : Inv w) {k : Kind} (hk : k = .typed ∨ k = .dyn ∨ k = .uninit) {p : Nat} (hn : 0 < (w.cells p).n k)
    (panics : Bool) {f g : World → Out} (hf : ∀ w, Inv w → Good (f w)) (hg : ∀ w, Inv w → Good (g w)) :
    Good (w.ended p panics f g (((w.cells p).take k).dropArc (k == .uninit) panics)) := by
  obtain ⟨c', v, e, hc, hv⟩ := dropArc_spec (i.cells p) hk hn panics
  rw [e]
  rcases hv with ⟨rfl, hv⟩ | ⟨u, rfl, hv, hv'⟩
  · exact hf _ (i.set hc hv)
  · have key : Inv ((w.set p c').drop u) := by
      refine ⟨i.setCell (w' := w) rfl hc, ?_⟩
      have := i.placed.destroy (p := p) hv
      refine this.same ?_
      rw [show stored ((w.set p c').drop u) = stored (w.set p c') from rfl, stored_set, hv']
    simp only [World.ended]
    split
    · exact hg _ key
    · exact hf _ key

theorem step_good {w : World} (i : Inv w) (op : Op) : Good (step w op) := by
  cases op with
  | create v =>
    simp only [step]
    split
    · trivial
    · rename_i h
      exact ⟨i.cells, i.placed.make (by simpa using h)⟩
  | dropVal v panics =>
    simp only [step]
    split
    · split <;> exact i.drop ‹_›
    · trivial
  | newIn v ans =>
    cases ans with
    | none => simp only [step]; exact good_discard i _
    | some p => exact good_construct i _ _
  | tryNewIn v ans =>
    cases ans with
    | none =>
      simp only [step]
      split
      · exact i
      · trivial
    | some p => exact good_construct i _ _
  | makeIn c ans =>
    cases ans with
    | none => simp only [step]; exact good_discard i _
    | some p => exact good_construct i _ _
  | tryMakeIn c ans =>
    cases ans with
    | none =>
      cases c with
      | init v =>
        simp only [step]
        split
        · exact i
        · trivial
      | fail => exact i
      | panic => exact i
    | some p => exact good_construct i _ _
  | deref k p =>
    simp only [step]
    split
    case isFalse => trivial
    case isTrue h =>
      obtain ⟨hk, hn⟩ := h
      have h := i.cells p
      revert h hn
      rcases e : w.cells p with ⟨blk, n⟩
      simp only
      intros
      rcases blk with _ | ⟨_ | v, s, wk⟩
      · exfalso; rcases hk with rfl | rfl <;> cell
      · exfalso; rcases hk with rfl | rfl <;> cell
      · exact i
  | clone k p =>
    simp only [step]
    split
    case isFalse => trivial
    case isTrue hn =>
      have h := i.cells p
      obtain ⟨b, hb⟩ := cellOK_blk h hn
      cases k <;> simp only [hb] <;> try trivial
      all_goals
        refine i.set ?_ (by simp [cval, stored, hb, Cell.give])
        revert h hn hb
        rcases w.cells p with ⟨blk, n⟩
        rcases b with ⟨_ | v, s, wk⟩ <;> simp only <;> intros <;> subst_vars <;> cell
  | downgrade k p =>
    simp only [step]
    split
    case isFalse => trivial
    case isTrue hn =>
      have h := i.cells p
      obtain ⟨b, hb⟩ := cellOK_blk h hn
      cases k <;> simp only [hb] <;> try trivial
      all_goals
        refine i.set ?_ (by simp [cval, stored, hb, Cell.give])
        revert h hn hb
        rcases w.cells p with ⟨blk, n⟩
        rcases b with ⟨_ | v, s, wk⟩ <;> simp only <;> intros <;> subst_vars <;> cell
  | upgrade k p =>
    simp only [step]
    split
    case isFalse => trivial
    case isTrue hn =>
      have h := i.cells p
      obtain ⟨b, hb⟩ := cellOK_blk h hn
      cases k <;> simp only [hb] <;> try trivial
      all_goals
        split
        · exact i
        rename_i hs
        refine i.set ?_ (by simp [cval, stored, hb, Cell.give])
        revert h hn hb hs
        rcases w.cells p with ⟨blk, n⟩
        rcases b with ⟨_ | v, s, wk⟩ <;> simp only <;> intros <;> subst_vars <;> cell
  | drop k p panics =>
    simp only [step]
    split
    case isFalse => trivial
    case isTrue hn =>
      cases k with
      | typed => exact good_ended i (k := .typed) (by simp) hn panics (fun _ h => h) (fun _ h => h)
      | dyn => exact good_ended i (k := .dyn) (by simp) hn panics (fun _ h => h) (fun _ h => h)
      | uninit => exact good_ended i (k := .uninit) (by simp) hn panics (fun _ h => h) (fun _ h => h)
      | weak =>
        obtain ⟨c', e, hc, hv⟩ := dropWeak_spec (i.cells p) (k := .weak) (by simp) hn
        simp only [e]
        exact i.set hc hv
      | weakUninit =>
        obtain ⟨c', e, hc, hv⟩ := dropWeak_spec (i.cells p) (k := .weakUninit) (by simp) hn
        simp only [e]
        exact i.set hc hv
      | raw => trivial
      | lost => trivial
      | lostWeak => trivial
  | replace k p v =>
    simp only [step]
    split
    case isFalse => trivial
    case isTrue h =>
      obtain ⟨hk, hn, hv⟩ := h
      have h := i.cells p
      obtain ⟨b, hb⟩ := cellOK_blk h hn
      simp only [hb]
      split
      case isFalse => exact i
      case isTrue hu =>
        cases e : b.val with
        | none =>
          exfalso
          revert h hn hb
          rcases w.cells p with ⟨blk, n⟩
          rcases b with ⟨_, s, wk⟩
          simp only at e
          subst e
          simp only
          intros
          subst_vars
          rcases hk with rfl | rfl <;> cell
        | some u =>
          simp only
          have hs : stored w p = some u := by simp [stored, hb, e]
          refine ⟨i.setCell (w' := (w.unhold v).hold u) rfl ?_, ?_⟩
          · revert h hn hb
            rcases w.cells p with ⟨blk, n⟩
            rcases b with ⟨_, s, wk⟩
            simp only at e
            subst e
            simp only
            intros
            subst_vars
            cell
          · have huv : v ≠ u := by
              rintro rfl
              have := i.placed.stored p v hs
              omega
            have h1 := i.placed.unstore hs
            have h2 := h1.store (v := v) (p := p) (by simp [huv]; exact hv) (by simp)
            have e1 : stored ((((w.unhold v).hold u)).set p { w.cells p with blk := some { b with val := some v } }) =
                fun q => if q = p then some v else if q = p then none else stored w q := by
              rw [stored_set]
              funext q
              by_cases e : q = p
              · simp [e, cval]
              · simp only [e, if_false]; rfl
            have e2 : (((w.unhold v).hold u).set p { w.cells p with blk := some { b with val := some v } }).held =
                fun x => if x = v then (if x = u then w.held x + 1 else w.held x) - 1 else (if x = u then w.held x + 1 else w.held x) := by
              funext x
              simp only [World.set, World.hold, World.unhold]
              by_cases e : x = v
              · subst e; simp [huv]
              · simp [e]
            rw [e1, e2]
            exact h2
  | assumeInit p v =>
    simp only [step]
    split
    case isFalse => trivial
    case isTrue h =>
      obtain ⟨hn, hv⟩ := h
      have h := i.cells p
      obtain ⟨b, hb⟩ := cellOK_blk h hn
      simp only [hb]
      split
      case isFalse => exact i
      case isTrue hu =>
        have hs : stored w p = none := by
          cases e : b.val with
          | none => simp [stored, hb, e]
          | some u =>
            exfalso
            revert h hn hb
            rcases w.cells p with ⟨blk, n⟩
            rcases b with ⟨_, s, wk⟩
            simp only at e
            subst e
            simp only
            intros
            subst_vars
            cell
        refine ⟨i.setCell (w' := w.unhold v) rfl ?_, ?_⟩
        · have hu : b.strong = 1 ∧ b.weak = 1 := by simpa [Blk.unique] using hu
          revert h hn hb hu
          rcases w.cells p with ⟨blk, n⟩
          rcases b with ⟨_ | x, s, wk⟩ <;> simp only <;> intros <;> subst_vars <;> cell
        · refine (i.placed.store (p := p) hv hs).same ?_
          rw [stored_set]
          rfl
  | makeMut p cloned ans panics =>
    simp only [step]
    split
    case isFalse => trivial
    case isTrue hn =>
      have h := i.cells p
      obtain ⟨b, hb⟩ := cellOK_blk h hn
      simp only [hb]
      split
      case isTrue => exact i
      case isFalse =>
        cases e : b.val with
        | none =>
          exfalso
          revert h hn hb
          rcases w.cells p with ⟨blk, n⟩
          rcases b with ⟨_, s, wk⟩
          simp only at e
          subst e
          simp only
          intros
          subst_vars
          cell
        | some u =>
          simp only
          cases cloned with
          | none => exact i
          | some v =>
            simp only
            split
            case isTrue => trivial
            case isFalse hc =>
              have hc : w.created v = false := by simpa using hc
              have i1 : Inv ((w.make v).hold v) := ⟨i.cells, i.placed.make hc⟩
              have hz := (i.placed.unborn v hc).1
              have e1 : ((w.make v).hold v).unhold v = w.make v := by
                simp only [World.make, World.hold, World.unhold]
                congr 1
                funext x
                by_cases e : x = v <;> simp [e]
              cases ans with
              | none =>
                have := i1.drop (v := v) (by simp [World.hold])
                rw [e1] at this
                exact this
              | some q =>
                simp only [World.ifVacant]
                split
                case isFalse => trivial
                case isTrue hq =>
                  have hq : (w.cells q).blk = none := by simpa using hq
                  have i2 := i1.fresh (v := v) (p := q) (by simp [World.hold]) hq
                  rw [e1] at i2
                  have hpq : p ≠ q := by rintro rfl; simp [hb] at hq
                  refine good_ended i2 (k := .typed) (by simp) (p := p) ?_ panics (fun _ h => h) (fun _ h => h)
                  simpa [World.set, hpq, World.make] using hn
  | tryIntoInner p =>
    simp only [step]
    split
    case isFalse => trivial
    case isTrue hn =>
      have h := i.cells p
      obtain ⟨b, hb⟩ := cellOK_blk h hn
      simp only [hb]
      split
      case isFalse => exact i
      case isTrue hu =>
        have hu : b.strong = 1 ∧ b.weak = 1 := by simpa [Blk.unique] using hu
        cases e : b.val with
        | none =>
          exfalso
          revert h hn hb
          rcases w.cells p with ⟨blk, n⟩
          rcases b with ⟨_, s, wk⟩
          simp only at e
          subst e
          simp only
          intros
          subst_vars
          cell
        | some u =>
          have hs : stored w p = some u := by simp [stored, hb, e]
          have hd : ((w.cells p).take .typed).dropWeak = some { (w.cells p).take .typed with blk := none } := by
            simp [Cell.dropWeak, Cell.take, hb, hu]
          simp only [hd]
          refine ⟨i.setCell (w' := w.hold u) rfl ?_, ?_⟩
          · revert h hn hb hu
            rcases w.cells p with ⟨blk, n⟩
            rcases b with ⟨_, s, wk⟩
            simp only at e
            subst e
            simp only
            intros
            subst_vars
            cell
          · refine (i.placed.unstore hs).same ?_
            rw [stored_set]
            rfl
  | intoRaw p =>
    simp only [step]
    split
    case isFalse => trivial
    case isTrue hn =>
      have h := i.cells p
      obtain ⟨b, hb⟩ := cellOK_blk h hn
      refine i.set ?_ (by simp [cval, stored, Cell.give, Cell.take])
      revert h hn hb
      rcases w.cells p with ⟨blk, n⟩
      rcases b with ⟨_ | v, s, wk⟩ <;> simp only <;> intros <;> subst_vars <;> cell
  | fromRaw p =>
    simp only [step]
    split
    case isFalse => trivial
    case isTrue hn =>
      have h := i.cells p
      obtain ⟨b, hb⟩ := cellOK_blk h hn
      refine i.set ?_ (by simp [cval, stored, Cell.give, Cell.take])
      revert h hn hb
      rcases w.cells p with ⟨blk, n⟩
      rcases b with ⟨_ | v, s, wk⟩ <;> simp only <;> intros <;> subst_vars <;> cell
  | increment k p =>
    simp only [step]
    split
    case isFalse => trivial
    case isTrue hn =>
      obtain ⟨hk, hn⟩ := hn
      have h := i.cells p
      obtain ⟨b, hb⟩ := cellOK_blk h hn
      simp only [hb]
      refine i.set ?_ (by simp [cval, stored, hb, Cell.give])
      revert h hn hb
      rcases w.cells p with ⟨blk, n⟩
      rcases b with ⟨_ | v, s, wk⟩ <;> simp only <;> intros <;> subst_vars <;> rcases hk with rfl | rfl <;> cell
  | anonymize p =>
    simp only [step]
    split
    case isFalse => trivial
    case isTrue hn =>
      have h := i.cells p
      obtain ⟨b, hb⟩ := cellOK_blk h hn
      refine i.set ?_ (by simp [cval, stored, Cell.give, Cell.take])
      revert h hn hb
      rcases w.cells p with ⟨blk, n⟩
      rcases b with ⟨_ | v, s, wk⟩ <;> simp only <;> intros <;> subst_vars <;> cell

theorem inv_reach {calm : Bool} {w : World} (h : Reach calm w) : Inv w := by
  induction h with
  | empty => exact ⟨fun _ => .empty, ⟨by simp [stored, World.empty, Cell.empty], by simp [stored, World.empty, Cell.empty],
      by simp [World.empty], by simp [World.empty]⟩⟩
  | ok _ e i => have := step_good i ‹_›; rw [e] at this; exact this
  | unwound _ e i => have := step_good i ‹_›; rw [e] at this; exact this

/-! ### What is lost -/

def lostAt (w : World) (p : Nat) : Nat := (w.cells p).n .lost + (w.cells p).n .lostWeak

/-- An operation that ends normally loses nothing. -/
def Kept (w : World) : Out → Prop
  | .ok w' => ∀ p, lostAt w' p = lostAt w p
  | _ => True

theorem lostAt_set {w w' : World} (hw : w'.cells = w.cells) {p : Nat} {c : Cell}
    (h : c.n .lost + c.n .lostWeak = lostAt w p) : ∀ q, lostAt (w'.set p c) q = lostAt w q := by
  intro q
  by_cases e : q = p
  · subst e; simpa [lostAt, World.set] using h
  · simp [lostAt, World.set, e, hw]

theorem dropWeak_n {c c' : Cell} (h : c.dropWeak = some c') : c'.n = c.n := by
  unfold Cell.dropWeak at h
  split at h
  · cases h
  · split at h <;> cases h <;> rfl

theorem dropArc_n {c c' : Cell} {u panics : Bool} {v : Option Nat} (h : c.dropArc u panics = .done c' v) (hv : v = none ∨ panics = false) :
    c'.n = c.n := by
  unfold Cell.dropArc at h
  split at h
  · cases h
  · simp only at h
    split at h
    · cases h; rfl
    · split at h
      · split at h
        · cases h
        · rename_i e; cases h; have := dropWeak_n e; exact this
      · split at h
        · cases h
        · split at h
          · cases h; simp_all
          · split at h
            · cases h
            · rename_i e; cases h; have := dropWeak_n e; exact this

theorem kept_ended {w w0 : World} {p : Nat} {k : Kind} (hk : k ≠ .lost ∧ k ≠ .lostWeak) {u panics : Bool} {g : World → Out}
    (hw : ∀ q, lostAt w0 q = lostAt w q) (hg : ∀ w1, Kept w (g w1)) :
    Kept w (w0.ended p panics .ok g (((w0.cells p).take k).dropArc u panics)) := by
  cases e : ((w0.cells p).take k).dropArc u panics with
  | ub => trivial
  | done c v =>
    have key : (v = none ∨ panics = false) → ∀ q, lostAt (w0.set p c) q = lostAt w q := by
      intro hv q
      rw [← hw q]
      refine lostAt_set (w := w0) rfl ?_ q
      rw [dropArc_n e hv]
      simp [Cell.take, lostAt, hk.1.symm, hk.2.symm]
    cases v with
    | none => exact key (Or.inl rfl)
    | some v =>
      simp only [World.ended]
      split
      · exact hg _
      · rename_i hp
        exact key (Or.inr (by simpa using hp))

theorem kept_construct (w : World) (c : Ctor) (p : Nat) : Kept w (w.ifVacant p (w.construct c p)) := by
  unfold World.ifVacant
  split
  · cases c with
    | init v =>
      simp only [World.construct]
      split
      · exact lostAt_set rfl (by simp [Cell.give, lostAt, World.unhold, World.make])
      · trivial
    | fail => exact lostAt_set rfl (by simp [Cell.give, lostAt, World.unhold, World.make])
    | panic => trivial
  · trivial

theorem kept_discard (w : World) (c : Ctor) : Kept w (w.discard c) := by
  cases c with
  | init v => simp only [World.discard]; split <;> trivial
  | fail => trivial
  | panic => trivial

theorem step_kept (w : World) (op : Op) : Kept w (step w op) := by
  have same : ∀ p, lostAt w p = lostAt w p := fun _ => rfl
  cases op with
  | create v => simp only [step]; split <;> first | trivial | exact same
  | dropVal v panics => simp only [step]; split <;> first | trivial | (split <;> first | trivial | exact same)
  | newIn v ans => cases ans <;> simp only [step] <;> first | exact kept_discard _ _ | exact kept_construct _ _ _
  | tryNewIn v ans =>
    cases ans <;> simp only [step]
    · split <;> first | trivial | exact same
    · exact kept_construct _ _ _
  | makeIn c ans => cases ans <;> simp only [step] <;> first | exact kept_discard _ _ | exact kept_construct _ _ _
  | tryMakeIn c ans =>
    cases ans <;> simp only [step]
    · cases c <;> simp only
      · split <;> first | trivial | exact same
      · exact same
      · exact same
    · exact kept_construct _ _ _
  | deref k p =>
    simp only [step]
    split
    · split <;> first | trivial | exact same
    · trivial
  | clone k p =>
    simp only [step]
    split
    · cases k <;> simp only <;> (try split) <;> first | trivial | exact lostAt_set rfl (by simp [Cell.give, lostAt, World.unhold, World.make])
    · trivial
  | downgrade k p =>
    simp only [step]
    split
    · cases k <;> simp only <;> (try split) <;> first | trivial | exact lostAt_set rfl (by simp [Cell.give, lostAt, World.unhold, World.make])
    · trivial
  | upgrade k p =>
    simp only [step]
    split
    · cases k <;> simp only <;> (try split) <;> (try split) <;>
        first | trivial | exact same | exact lostAt_set rfl (by simp [Cell.give, lostAt, World.unhold, World.make])
    · trivial
  | drop k p panics =>
    simp only [step]
    split
    · cases k with
      | typed => exact kept_ended (by simp) same (fun _ => trivial)
      | uninit => exact kept_ended (by simp) same (fun _ => trivial)
      | dyn => exact kept_ended (by simp) same (fun _ => trivial)
      | weak =>
        simp only
        split
        · rename_i e; exact lostAt_set rfl (by rw [dropWeak_n e]; simp [Cell.take, lostAt, World.unhold, World.hold])
        · trivial
      | weakUninit =>
        simp only
        split
        · rename_i e; exact lostAt_set rfl (by rw [dropWeak_n e]; simp [Cell.take, lostAt, World.unhold, World.hold])
        · trivial
      | raw => trivial
      | lost => trivial
      | lostWeak => trivial
    · trivial
  | replace k p v =>
    simp only [step]
    split
    · split
      · split
        · split
          · exact lostAt_set rfl (by simp [lostAt, World.hold, World.unhold])
          · trivial
        · exact same
      · trivial
    · trivial
  | assumeInit p v =>
    simp only [step]
    split
    · split
      · split
        · exact lostAt_set rfl (by simp [Cell.give, Cell.take, lostAt, World.unhold, World.hold])
        · exact same
      · trivial
    · trivial
  | makeMut p cloned ans panics =>
    simp only [step]
    split
    · split
      · split
        · exact same
        · split
          · trivial
          · split
            · trivial
            · split
              · trivial
              · split
                · trivial
                · rename_i q
                  unfold World.ifVacant
                  split
                  · refine kept_ended (by simp) (fun r => ?_) (fun _ => trivial)
                    exact lostAt_set rfl (by simp [Cell.give, lostAt, World.unhold, World.make]) r
                  · trivial
      · trivial
    · trivial
  | tryIntoInner p =>
    simp only [step]
    split
    · split
      · split
        · split
          · split
            · rename_i e; exact lostAt_set rfl (by rw [dropWeak_n e]; simp [Cell.take, lostAt, World.unhold, World.hold])
            · trivial
          · trivial
        · exact same
      · trivial
    · trivial
  | intoRaw p => simp only [step]; split <;> first | trivial | exact lostAt_set rfl (by simp [Cell.give, Cell.take, lostAt, World.unhold, World.hold])
  | fromRaw p => simp only [step]; split <;> first | trivial | exact lostAt_set rfl (by simp [Cell.give, Cell.take, lostAt, World.unhold, World.hold])
  | increment k p =>
    simp only [step]
    split
    · split <;> first | trivial | exact lostAt_set rfl (by simp [Cell.give, lostAt, World.unhold, World.make])
    · trivial
  | anonymize p => simp only [step]; split <;> first | trivial | exact lostAt_set rfl (by simp [Cell.give, Cell.take, lostAt, World.unhold, World.hold])

theorem calm_reach {calm : Bool} {w : World} (h : Reach calm w) (hc : calm = true) : ∀ p, lostAt w p = 0 := by
  induction h with
  | empty => intro p; rfl
  | @ok _ w _ op _ e i =>
    intro p
    have := step_kept w op
    rw [e] at this
    rw [this p]
    exact i hc p
  | unwound => cases hc

/-! ### The property -/

/-- **C102.** No operation on `Arc`s and `Weak`s, in any order, is undefined behaviour: nothing is used after it was freed, destroyed twice, or read
before it was initialised. -/
theorem C102_no_ub {calm : Bool} {w : World} (h : Reach calm w) (op : Op) : step w op ≠ .ub := by
  intro e
  have := step_good (inv_reach h) op
  rw [e] at this
  exact this

/-- **C102.** A value that was made either is in the hands of the program, or is in exactly one block, or was destroyed once. -/
theorem C102_once {calm : Bool} {w : World} (h : Reach calm w) {v : Nat} (hv : w.created v = true) :
    (w.held v = 1 ∧ w.dropped v = 0 ∧ ∀ p, stored w p ≠ some v) ∨ (w.held v = 0 ∧ w.dropped v = 1 ∧ ∀ p, stored w p ≠ some v) ∨
      (w.held v = 0 ∧ w.dropped v = 0 ∧ ∃ p, stored w p = some v ∧ ∀ q, stored w q = some v → q = p) := by
  have i := (inv_reach h).placed
  rcases i.somewhere v hv with e | ⟨p, e⟩
  · have ns : ∀ p, stored w p ≠ some v := fun p hp => by have := i.stored p v hp; omega
    by_cases e' : w.held v = 0
    · exact Or.inr (Or.inl ⟨e', by omega, ns⟩)
    · exact Or.inl ⟨by omega, by omega, ns⟩
  · have := i.stored p v e
    exact Or.inr (Or.inr ⟨this.2.1, this.2.2, p, e, fun q hq => i.once q p v hq e⟩)

/-- **C102.** What an `Arc`, a trait object or a raw `Arc` points to has a value, and conversely a stored value has such an owner. -/
theorem C102_alive {calm : Bool} {w : World} (h : Reach calm w) (p : Nat) : (stored w p).isSome = true ↔ 0 < owners (w.cells p) := by
  have i := (inv_reach h).cells p
  revert i
  simp only [stored]
  rcases w.cells p with ⟨_ | ⟨_ | v, s, k⟩, n⟩
  · intro i; rw [cellOK_free] at i; simp [owners]; omega
  · intro i; rw [cellOK_none] at i; simp [owners]; omega
  · intro i; rw [cellOK_some] at i; simp [owners]; omega

/-- **C102.** The counters of a block are the numbers of its handles; all the strong ones share a weak one.  Memory is kept exactly as long as
something points to it. -/
theorem C102_counts {calm : Bool} {w : World} (h : Reach calm w) (p : Nat) :
    match (w.cells p).blk with
    | some b => b.strong = strongs (w.cells p) ∧ b.weak = weaks (w.cells p) + (if 0 < b.strong then 1 else 0) ∧
        0 < strongs (w.cells p) + weaks (w.cells p)
    | none => strongs (w.cells p) + weaks (w.cells p) = 0 := by
  have i := (inv_reach h).cells p
  revert i
  rcases w.cells p with ⟨_ | ⟨_ | v, s, k⟩, n⟩
  · intro i; rw [cellOK_free] at i; simp only [strongs, weaks]; omega
  · intro i; rw [cellOK_none] at i; simp only [strongs, weaks]; split <;> omega
  · intro i; rw [cellOK_some] at i; simp only [strongs, weaks]; split <;> omega

/-- **C102 (partial).** As long as nothing unwinds, nothing is lost: memory is kept only by handles of the program, and a stored value has an owner in
the program.  Not so when a destructor or a constructor unwinds (`C102_unwind_refuted`). -/
theorem C102_no_leak_partial {w : World} (h : Reach true w) (p : Nat) (hb : (w.cells p).blk.isSome = true) :
    0 < (w.cells p).n .typed + (w.cells p).n .uninit + (w.cells p).n .raw + (w.cells p).n .dyn + (w.cells p).n .weak + (w.cells p).n .weakUninit := by
  have hl := calm_reach h rfl p
  have := C102_counts h p
  cases e : (w.cells p).blk with
  | none => simp [e] at hb
  | some b =>
    simp only [e, strongs, weaks, lostAt] at this hl
    omega

/-- **C102.** Dropping an `Arc` or a trait object of which there are others leaves the value alone; dropping the last one destroys it. -/
theorem C102_drop {calm : Bool} {w : World} (h : Reach calm w) {k : Kind} (hk : k = .typed ∨ k = .dyn) {p : Nat}
    (hn : 0 < (w.cells p).n k) :
    ∃ w', step w (.drop k p false) = .ok w' ∧ owners (w'.cells p) = owners (w.cells p) - 1 ∧
      (1 < owners (w.cells p) → w'.dropped = w.dropped ∧ stored w' = stored w) ∧
      (owners (w.cells p) = 1 → ∃ v, stored w p = some v ∧ stored w' p = none ∧ w'.dropped v = 1 ∧ ∀ u, u ≠ v → w'.dropped u = w.dropped u) := by
  have i := inv_reach h
  have hc := i.cells p
  obtain ⟨c', v, e, hc', hv⟩ := dropArc_spec hc (k := k) (by rcases hk with rfl | rfl <;> simp) hn false
  have hu : (k == Kind.uninit) = false := by rcases hk with rfl | rfl <;> rfl
  rw [hu] at e
  have en : c'.n = ((w.cells p).take k).n := dropArc_n e (Or.inr rfl)
  have ho : owners c' = owners (w.cells p) - 1 := by
    simp only [owners, en]
    rcases hk with rfl | rfl <;> simp only [Cell.take, reduceIte, reduceCtorEq] <;> omega
  have ha : ∀ {c : Cell}, CellOK c → ((cval c).isSome = true ↔ 0 < owners c) := by
    intro c hc
    rcases c with ⟨_ | ⟨_ | v, s, k⟩, n⟩
    · rw [cellOK_free] at hc; simp [cval, owners]; omega
    · rw [cellOK_none] at hc; simp [cval, owners]; omega
    · rw [cellOK_some] at hc; simp [cval, owners]; omega
  have hs : ∀ w1 : World, stored (w1.set p c') p = cval c' := by intro w1; rw [stored_set]; simp
  have hw : step w (.drop k p false) = w.ended p false .ok .unwound (.done c' v) ∨
      step w (.drop k p false) = w.ended p false .ok .aborted (.done c' v) := by
    rcases hk with rfl | rfl <;> simp [step, hn, e]
  rcases hv with ⟨rfl, hv⟩ | ⟨u, rfl, hv, hv'⟩
  · refine ⟨w.set p c', ?_, by simpa [World.set] using ho, fun _ => ⟨rfl, ?_⟩, fun h1 => ?_⟩
    · rcases hw with hw | hw <;> rw [hw] <;> rfl
    · rw [stored_set]
      funext q
      by_cases e : q = p
      · subst e; simp only [if_true]; exact hv
      · simp [e]
    · exfalso
      have h2 := (ha hc).2 (by omega)
      rw [← hv] at h2
      have := (ha hc').1 h2
      omega
  · refine ⟨(w.set p c').drop u, ?_, by simpa [World.set, World.drop] using ho, fun h1 => ?_, fun _ => ⟨u, hv, ?_, ?_, ?_⟩⟩
    · rcases hw with hw | hw <;> rw [hw] <;> rfl
    · exfalso
      have := (ha hc').2 (by omega)
      simp [hv'] at this
    · exact (hs w).trans hv'
    · have := (i.placed.stored p u hv).2.2
      simp [World.drop, World.set, this]
    · intro x hx
      simp [World.drop, World.set, hx]

/-- **C102.** `upgrade` gives an `Arc` exactly while there is a value to point to. -/
theorem C102_upgrade {calm : Bool} {w : World} (h : Reach calm w) {p : Nat} (hn : 0 < (w.cells p).n .weak) :
    ∃ w', step w (.upgrade .weak p) = .ok w' ∧ stored w' = stored w ∧
      (w'.cells p).n .typed = (w.cells p).n .typed + (if (stored w p).isSome then 1 else 0) := by
  have ha := C102_alive h p
  have i := inv_reach h
  have hc := i.cells p
  obtain ⟨b, hb⟩ := cellOK_blk hc hn
  have key : b.strong = 0 ↔ ¬ (stored w p).isSome = true := by
    rw [ha]
    revert hc hn hb
    rcases w.cells p with ⟨blk, n⟩
    rcases b with ⟨_ | v, s, wk⟩ <;> simp only [owners] <;> intros <;> subst_vars <;> cell
  by_cases e : b.strong = 0
  · refine ⟨w, by simp [step, hn, hb, e], rfl, ?_⟩
    have := key.1 e
    simp [this]
  · refine ⟨_, by simp [step, hn, hb, e]; rfl, ?_, ?_⟩
    · rw [stored_set]
      funext q
      by_cases e : q = p
      · subst e; simp [cval, Cell.give, stored, hb]
      · simp [e]
    · have : (stored w p).isSome = true := by
        cases e' : (stored w p).isSome with
        | true => rfl
        | false => exact absurd (key.2 (by simp [e'])) e
      simp [this, World.set, Cell.give]

/-- **C102.** A failed allocation leaves everything with the caller of `try_new_in`; `new_in` unwinds, and the value is destroyed, once. -/
theorem C102_given_back {calm : Bool} {w : World} (h : Reach calm w) {v : Nat} (hv : 0 < w.held v) :
    step w (.tryNewIn v none) = .ok w ∧
      ∃ w', step w (.newIn v none) = .unwound w' ∧ w'.held v = 0 ∧ w'.dropped v = 1 ∧ w'.cells = w.cells := by
  have i := (inv_reach h).placed
  have hs : w.held v = 1 ∧ w.dropped v = 0 := by
    have hc : w.created v = true := by
      cases e : w.created v with
      | true => rfl
      | false => have := i.unborn v e; omega
    rcases i.somewhere v hc with e | ⟨p, e⟩
    · omega
    · have := i.stored p v e; omega
  refine ⟨by simp [step, hv], (w.unhold v).drop v, by simp [step, World.discard, hv], ?_, ?_, rfl⟩
  · simp [World.drop, World.unhold, hs.1]
  · simp [World.drop, World.unhold, hs.2]

/-- **C102.** `try_into_inner` gives the value and frees the memory exactly when nothing else points to them, and otherwise gives the `Arc` back. -/
theorem C102_into_inner {calm : Bool} {w : World} (h : Reach calm w) {p : Nat} (hn : 0 < (w.cells p).n .typed) :
    ∃ w', step w (.tryIntoInner p) = .ok w' ∧
      if strongs (w.cells p) = 1 ∧ weaks (w.cells p) = 0 then
        ∃ v, stored w p = some v ∧ w'.held v = 1 ∧ (w'.cells p).blk = none ∧ w'.dropped = w.dropped
      else w' = w := by
  have i := inv_reach h
  have hc := i.cells p
  have hcount := C102_counts h p
  obtain ⟨b, hb⟩ := cellOK_blk hc hn
  simp only [hb] at hcount
  have hu : b.unique = true ↔ strongs (w.cells p) = 1 ∧ weaks (w.cells p) = 0 := by
    obtain ⟨h1, h2, h3⟩ := hcount
    simp only [Blk.unique, Bool.and_eq_true, beq_iff_eq]
    split at h2 <;> omega
  by_cases e : b.unique = true
  · have ha := (C102_alive h p).2 (by simp only [owners]; omega)
    obtain ⟨v, hv⟩ := Option.isSome_iff_exists.1 ha
    have hv' : b.val = some v := by simpa [stored, hb] using hv
    have hw : b.weak = 1 := by simp [Blk.unique] at e; exact e.2
    have hd : ((w.cells p).take .typed).dropWeak = some { (w.cells p).take .typed with blk := none } := by
      simp [Cell.dropWeak, Cell.take, hb, hw]
    refine ⟨(w.hold v).set p { (w.cells p).take .typed with blk := none }, by simp [step, hn, hb, e, hv', hd], ?_⟩
    rw [if_pos (hu.1 e)]
    refine ⟨v, hv, ?_, by simp [World.set], rfl⟩
    have := (i.placed.stored p v hv).2.1
    simp [World.set, World.hold, this]
  · refine ⟨w, by simp [step, hn, hb, e], ?_⟩
    rw [if_neg (fun h => e (hu.2 h))]

/-- **C102.** After `make_mut`, the `Arc` is the only handle of its block: either nothing changed, or it is that of a new block, which holds the clone;
the other handles of the old block keep its value. -/
theorem C102_make_mut {calm : Bool} {w w' : World} (h : Reach calm w) {p v q : Nat} (hn : 0 < (w.cells p).n .typed)
    (hs : step w (.makeMut p (some v) (some q) false) = .ok w') :
    (w' = w ∧ strongs (w.cells p) = 1 ∧ weaks (w.cells p) = 0) ∨
      (p ≠ q ∧ stored w' q = some v ∧ strongs (w'.cells q) = 1 ∧ weaks (w'.cells q) = 0 ∧ (w'.cells q).n .typed = 1 ∧
        (stored w' p = stored w p ∨ stored w' p = none ∧ owners (w'.cells p) = 0)) := by
  have i := inv_reach h
  have hc := i.cells p
  have hcount := C102_counts h p
  obtain ⟨b, hb⟩ := cellOK_blk hc hn
  simp only [hb] at hcount
  have hu : b.unique = true ↔ strongs (w.cells p) = 1 ∧ weaks (w.cells p) = 0 := by
    obtain ⟨h1, h2, h3⟩ := hcount
    simp only [Blk.unique, Bool.and_eq_true, beq_iff_eq]
    split at h2 <;> omega
  by_cases e : b.unique = true
  · left
    have : w = w' := by simpa [step, hn, hb, e] using hs
    exact ⟨this.symm, hu.1 e⟩
  · right
    obtain ⟨x, hx⟩ := Option.isSome_iff_exists.1 ((C102_alive h p).2 (by simp only [owners]; omega))
    have hx' : b.val = some x := by simpa [stored, hb] using hx
    by_cases hcr : w.created v = true
    · simp [step, hn, hb, e, hx', hcr] at hs
    · by_cases hq : (w.cells q).blk = none
      · have hpq : p ≠ q := by rintro rfl; simp [hb] at hq
        have hnq : ∀ k, (w.cells q).n k = 0 := by
          have := i.cells q
          simpa [CellOK, hq] using this
        have hcr' : w.created v = false := by simpa using hcr
        simp only [step, hn, hb, e, hx', hcr, World.ifVacant, hq] at hs
        simp only [if_true, Option.isNone_none] at hs
        have hcell : (((w.make v).set q ({ w.cells q with blk := some ⟨some v, 1, 1⟩ }.give .typed)).cells p) = w.cells p := by
          simp [World.set, hpq, World.make]
        obtain ⟨c', r, e', hc', hv⟩ := dropArc_spec hc (k := .typed) (by simp) hn false
        have hb' : (Kind.typed == Kind.uninit) = false := rfl
        rw [hb'] at e'
        have hw' : w'.cells = fun y => if y = p then c' else if y = q then ({ w.cells q with blk := some ⟨some v, 1, 1⟩ }.give .typed)
            else w.cells y := by
          simp only [Bool.false_eq_true, if_false] at hs
          rw [hcell] at hs
          rw [e'] at hs
          rcases hv with ⟨rfl, hv⟩ | ⟨u, rfl, hv, hv'⟩ <;> simp only [World.ended, Bool.false_eq_true, if_false, Out.ok.injEq] at hs <;> subst hs <;>
            simp [World.set, World.drop, World.make]
        refine ⟨hpq, ?_, ?_, ?_, ?_, ?_⟩
        · simp [stored, hw', hpq.symm, Cell.give]
        · simp [strongs, hw', hpq.symm, Cell.give, hnq]
        · simp [weaks, hw', hpq.symm, Cell.give, hnq]
        · simp [hw', hpq.symm, Cell.give, hnq]
        · rcases hv with ⟨rfl, hv⟩ | ⟨u, rfl, hv, hv'⟩
          · left
            have : stored w' p = cval c' := by simp [stored, hw', cval]
            rw [this, hv]; rfl
          · right
            have h1 : stored w' p = cval c' := by simp [stored, hw', cval]
            refine ⟨h1.trans hv', ?_⟩
            have : w'.cells p = c' := by simp [hw']
            rw [this]
            revert hc' hv'
            rcases c' with ⟨_ | ⟨_ | y, s, k⟩, n⟩
            · intro hc' _; rw [cellOK_free] at hc'; simp only [owners]; omega
            · intro hc' _; rw [cellOK_none] at hc'; simp only [owners]; omega
            · intro _ hv'; simp [cval] at hv'
      · have : ((w.cells q).blk.isNone = true) = False := by simp; simpa using hq
        simp [step, hn, hb, e, hx', hcr, World.ifVacant, this] at hs

/-- **C102.** `from_raw(into_raw(this))` is `this`. -/
theorem C102_raw {w w1 : World} {p : Nat} (h1 : step w (.intoRaw p) = .ok w1) : ∃ w2, step w1 (.fromRaw p) = .ok w2 ∧ w2 = w := by
  simp only [step] at h1
  split at h1
  case isFalse => cases h1
  case isTrue hn =>
    cases h1
    refine ⟨_, by simp [step, World.set, Cell.give, Cell.take]; rfl, ?_⟩
    rcases w with ⟨cells, held, dropped, created⟩
    simp only [World.set, World.mk.injEq, and_true]
    funext q
    by_cases e : q = p
    · subst e
      simp only [if_true]
      revert hn
      simp only
      rcases cells q with ⟨blk, n⟩
      intro hn
      simp only [Cell.give, Cell.take, Cell.mk.injEq, true_and]
      funext k
      cases k <;> simp at hn ⊢; omega
    · simp [e]

/-- **C102.** When a constructor fails, the memory belongs to an `Arc<MaybeUninit<T>>`; dropping that frees it, and destroys nothing. -/
theorem C102_failed_constructor {calm : Bool} {w : World} (h : Reach calm w) {p : Nat} (hp : (w.cells p).blk = none) (panics : Bool) :
    ∃ w1 w2, step w (.makeIn .fail (some p)) = .ok w1 ∧ stored w1 p = none ∧ step w1 (.drop .uninit p panics) = .ok w2 ∧
      (w2.cells p).blk = none ∧ w2.dropped = w.dropped ∧ w2.held = w.held := by
  have hn : ∀ k, (w.cells p).n k = 0 := by
    have := (inv_reach h).cells p
    simpa [CellOK, hp] using this
  refine ⟨w.set p ({ w.cells p with blk := some ⟨none, 1, 1⟩ }.give .uninit),
    (w.set p ({ w.cells p with blk := some ⟨none, 1, 1⟩ }.give .uninit)).set p
      { ({ w.cells p with blk := some ⟨none, 1, 1⟩ }.give .uninit).take .uninit with blk := none }, ?_, ?_, ?_, ?_, ?_, ?_⟩
  · simp [step, World.ifVacant, hp, World.construct]
  · rw [stored_set]; simp [cval, Cell.give]
  · simp [step, World.set, Cell.give, Cell.take, Cell.dropArc, Cell.dropWeak, World.ended, hn]
  · simp [World.set]
  · rfl
  · rfl

/-! ### The rest fails -/

/-- Runs operations from the start; `none` if one of them is undefined behaviour or not possible. -/
def run : List Op → Option (Bool × World)
  | ops => ops.foldl (fun s op => s.bind fun (c, w) => match step w op with
      | .ok w' => some (c, w')
      | .unwound w' => some (false, w')
      | _ => none) (some (true, .empty))

theorem run_reach (ops : List Op) : ∀ c w, run ops = some (c, w) → Reach c w := by
  have key : ∀ (ops : List Op) (s : Option (Bool × World)), (∀ c w, s = some (c, w) → Reach c w) →
      ∀ c w, ops.foldl (fun s op => s.bind fun (c, w) => match step w op with
        | .ok w' => some (c, w')
        | .unwound w' => some (false, w')
        | _ => none) s = some (c, w) → Reach c w := by
    intro ops
    induction ops with
    | nil => intro s h; simpa using h
    | cons op ops ih =>
      intro s h
      refine ih _ ?_
      intro c w e
      cases s with
      | none => simp at e
      | some cw =>
        obtain ⟨c0, w0⟩ := cw
        simp only [Option.bind_some] at e
        split at e
        · cases e; exact .ok (h _ _ rfl) ‹_›
        · cases e; exact .unwound (h _ _ rfl) ‹_›
        · cases e
  exact key ops _ (fun c w e => by cases e; exact .empty)

/-- **C102 (refuted part).** When the destructor of the value unwinds, the last `Arc` is gone but the memory (and the allocator in it) stays for ever:
it is only released by the code after the destructor (sync.rs:293-297).  So it does when a constructor unwinds, which is documented (sync.rs:81). -/
theorem C102_unwind_refuted :
    (∃ w, Reach false w ∧ (w.cells 8).blk.isSome = true ∧ (∀ k, k ≠ .lost → k ≠ .lostWeak → (w.cells 8).n k = 0) ∧ w.dropped 1 = 1) ∧
    (∃ w, Reach false w ∧ (w.cells 8).blk.isSome = true ∧ (∀ k, k ≠ .lost → k ≠ .lostWeak → (w.cells 8).n k = 0) ∧ w.created 1 = false) := by
  refine ⟨?_, ?_⟩
  · cases e : run [.create 1, .newIn 1 (some 8), .drop .typed 8 true] with
    | none => exact absurd e (by simp [run, step, World.empty, World.make, World.hold, World.construct, World.ifVacant, World.set, Cell.give, Cell.empty,
        World.unhold, Cell.take, Cell.dropArc, World.ended])
    | some cw =>
      have hr := run_reach _ cw.1 cw.2 e
      simp [run, step, World.empty, World.make, World.hold, World.construct, World.ifVacant, World.set, Cell.give, Cell.empty,
        World.unhold, Cell.take, Cell.dropArc, World.ended, World.drop] at e
      subst e
      refine ⟨_, hr, rfl, ?_, rfl⟩
      intro k h1 h2
      cases k <;> simp at h1 h2 ⊢
  · cases e : run [.makeIn .panic (some 8)] with
    | none => exact absurd e (by simp [run, step, World.empty, World.construct, World.ifVacant, Cell.empty])
    | some cw =>
      have hr := run_reach _ cw.1 cw.2 e
      simp [run, step, World.empty, World.construct, World.ifVacant, World.set, Cell.give, Cell.empty] at e
      subst e
      refine ⟨_, hr, rfl, ?_, rfl⟩
      intro k h1 h2
      cases k <;> simp at h1 h2 ⊢

/-! ### A program that does a bit of everything -/

/-- Two values; an `Arc` of the first, cloned, downgraded and turned into a trait object; `make_mut`; a failed constructor. -/
def demo : List Op := [.create 1, .create 2, .newIn 1 (some 8), .clone .typed 8, .downgrade .typed 8, .anonymize 8, .makeMut 8 (some 3) (some 9) false,
  .upgrade .weak 8, .intoRaw 8, .increment .raw 8, .makeIn .fail (some 10), .assumeInit 10 2]

example : ((run demo).map fun (c, w) => (c, (w.cells 8).blk, (w.cells 9).blk, (w.cells 10).blk, (w.cells 8).n .dyn, (w.cells 8).n .raw)) =
    some (true, some ⟨some 1, 3, 2⟩, some ⟨some 3, 1, 1⟩, some ⟨some 2, 1, 1⟩, 1, 2) := by rfl

/-- The hypotheses of the theorems hold there: reached without unwinding, several owners at 8, a weak handle, sole owners at 9 and 10. -/
example : ∃ w, Reach true w ∧ 1 < owners (w.cells 8) ∧ 0 < (w.cells 8).n .dyn ∧ 0 < (w.cells 8).n .weak ∧ 0 < (w.cells 9).n .typed ∧
    strongs (w.cells 9) = 1 ∧ (w.cells 11).blk = none ∧ w.created 2 = true := by
  cases e : run demo with
  | none => cases e
  | some cw =>
    obtain ⟨c, w⟩ := cw
    have hr := run_reach _ c w e
    have : (run demo).map (fun x => (x.1, owners (x.2.cells 8), (x.2.cells 8).n .dyn, (x.2.cells 8).n .weak, (x.2.cells 9).n .typed,
        strongs (x.2.cells 9), (x.2.cells 11).blk, x.2.created 2)) = some (true, 3, 1, 1, 1, 1, none, true) := by rfl
    rw [e] at this
    simp only [Option.map_some, Option.some.injEq, Prod.mk.injEq] at this
    obtain ⟨h1, h2, h3, h4, h5, h6, h7, h8⟩ := this
    subst h1
    exact ⟨w, hr, by omega, by omega, by omega, by omega, h6, h7, h8⟩

/-- A program to which an allocation was refused: `try_new_in` returned the value, `new_in` unwound. -/
example : ((run [.create 1, .tryNewIn 1 none, .newIn 1 none]).map fun x => (x.1, x.2.held 1, x.2.dropped 1)) = some (false, 0, 1) := by rfl

/-- What a program can write: values are used while the program has them, handles of the right kind while it has one, values are created once, and
allocators return addresses that aren't in use. -/
def Can (w : World) : Op → Prop
  | .create v => w.created v = false
  | .dropVal v _ => 0 < w.held v
  | .newIn v ans | .tryNewIn v ans => 0 < w.held v ∧ ∀ p, ans = some p → (w.cells p).blk = none
  | .makeIn c ans | .tryMakeIn c ans => (∀ v, c = .init v → 0 < w.held v) ∧ ∀ p, ans = some p → (w.cells p).blk = none
  | .deref k p => (k = .typed ∨ k = .dyn) ∧ 0 < (w.cells p).n k
  | .clone k p => (k = .typed ∨ k = .uninit ∨ k = .dyn ∨ k = .weak ∨ k = .weakUninit) ∧ 0 < (w.cells p).n k
  | .downgrade k p => (k = .typed ∨ k = .uninit) ∧ 0 < (w.cells p).n k
  | .upgrade k p => (k = .weak ∨ k = .weakUninit) ∧ 0 < (w.cells p).n k
  | .drop k p _ => (k = .typed ∨ k = .uninit ∨ k = .dyn ∨ k = .weak ∨ k = .weakUninit) ∧ 0 < (w.cells p).n k
  | .replace k p v => (k = .typed ∨ k = .dyn) ∧ 0 < (w.cells p).n k ∧ 0 < w.held v
  | .assumeInit p v => 0 < (w.cells p).n .uninit ∧ 0 < w.held v
  | .makeMut p cloned ans _ => 0 < (w.cells p).n .typed ∧
      ((strongs (w.cells p) = 1 ∧ weaks (w.cells p) = 0) ∨
        ∀ v, cloned = some v → w.created v = false ∧ ∀ q, ans = some q → (w.cells q).blk = none)
  | .tryIntoInner p | .intoRaw p | .anonymize p => 0 < (w.cells p).n .typed
  | .fromRaw p => 0 < (w.cells p).n .raw
  | .increment k p => (k = .typed ∨ k = .raw) ∧ 0 < (w.cells p).n k

theorem ended_valid (w : World) (p : Nat) (panics : Bool) (f g : World → Out) (hf : ∀ w, f w ≠ .invalid) (hg : ∀ w, g w ≠ .invalid) (r : Gone) :
    w.ended p panics f g r ≠ .invalid := by
  rcases r with _ | ⟨c, _ | v⟩
  · simp [World.ended]
  · exact hf _
  · simp only [World.ended]; split
    · exact hg _
    · exact hf _

/-- **C102.** Every operation that a program can write does something, and no other: nothing is proved of programs that cannot be. -/
theorem C102_can {calm : Bool} {w : World} (h : Reach calm w) (op : Op) : step w op ≠ .invalid ↔ Can w op := by
  have hcount := fun p => C102_counts h p
  cases op with
  | create v => simp only [step, Can]; cases w.created v <;> simp
  | dropVal v panics => simp only [step, Can]; by_cases hv : 0 < w.held v <;> cases panics <;> simp [hv]
  | newIn v ans =>
    cases ans with
    | none => simp only [step, Can, World.discard]; split <;> simp_all
    | some p => simp only [step, Can, World.ifVacant, World.construct]; cases e : (w.cells p).blk <;> simp <;> (try split) <;> simp_all <;> omega
  | tryNewIn v ans =>
    cases ans with
    | none => simp only [step, Can]; split <;> simp_all
    | some p => simp only [step, Can, World.ifVacant, World.construct]; cases e : (w.cells p).blk <;> simp <;> (try split) <;> simp_all <;> omega
  | makeIn c ans =>
    cases ans with
    | none => cases c <;> simp only [step, Can, World.discard] <;> (try split) <;> simp_all
    | some p => cases c <;> simp only [step, Can, World.ifVacant, World.construct] <;> cases e : (w.cells p).blk <;> simp <;> (try split) <;> simp_all <;> omega
  | tryMakeIn c ans =>
    cases ans with
    | none => cases c <;> simp only [step, Can] <;> (try split) <;> simp_all
    | some p => cases c <;> simp only [step, Can, World.ifVacant, World.construct] <;> cases e : (w.cells p).blk <;> simp <;> (try split) <;> simp_all <;> omega
  | deref k p =>
    simp only [step, Can]; split
    · rename_i h1; split <;> simp [h1]
    · rename_i h1; simp [h1]
  | clone k p =>
    simp only [step, Can]; split
    · rename_i h1; cases k <;> cases e : (w.cells p).blk <;> simp_all
    · rename_i h1; simp [h1]
  | downgrade k p =>
    simp only [step, Can]; split
    · rename_i h1; cases k <;> cases e : (w.cells p).blk <;> simp_all
    · rename_i h1; simp [h1]
  | upgrade k p =>
    simp only [step, Can]; split
    · rename_i h1
      cases k <;> cases e : (w.cells p).blk <;> simp <;> (try split) <;> simp_all <;> omega
    · rename_i h1; simp [h1]
  | drop k p panics =>
    simp only [step, Can]; split
    · rename_i h1
      have e1 := fun r => ended_valid w p panics .ok .unwound (by simp) (by simp) r
      have e2 := fun r => ended_valid w p panics .ok .aborted (by simp) (by simp) r
      cases k <;> simp [e1, e2, h1] <;> (split <;> simp)
    · rename_i h1; simp [h1]
  | replace k p v =>
    simp only [step, Can]; split
    · rename_i h1
      cases e : (w.cells p).blk with
      | none => simpa using h1
      | some b =>
        simp only; split
        · split <;> simpa using h1
        · simpa using h1
    · rename_i h1; simpa using h1
  | assumeInit p v =>
    simp only [step, Can]; split
    · rename_i h1
      cases e : (w.cells p).blk with
      | none => simpa using h1
      | some b => simp only; split <;> simpa using h1
    · rename_i h1; simpa using h1
  | makeMut p cloned ans panics =>
    simp only [step, Can]; split
    · rename_i h1
      obtain ⟨b, hb⟩ := cellOK_blk ((inv_reach h).cells p) h1
      have hc := hcount p
      simp only [hb] at hc ⊢
      have hu : b.unique = true ↔ strongs (w.cells p) = 1 ∧ weaks (w.cells p) = 0 := by
        simp only [Blk.unique, Bool.and_eq_true, beq_iff_eq]
        split at hc <;> omega
      by_cases e : b.unique = true
      · simp [e, h1, hu.1 e]
      · have hn : ¬ (strongs (w.cells p) = 1 ∧ weaks (w.cells p) = 0) := fun x => e (hu.2 x)
        simp only [e, if_false, h1, true_and, hn, false_or]
        have hval : b.val ≠ none := by
          intro ev
          have ha := (C102_alive h p).2 (by simp only [owners]; omega)
          simp [stored, hb, ev] at ha
        cases ev : b.val with
        | none => exact absurd ev hval
        | some u =>
          cases cloned with
          | none => simp
          | some v =>
            cases ec : w.created v with
            | true => simp [ec]
            | false =>
              cases ans with
              | none => simp [ec]
              | some q =>
                simp only [World.ifVacant]
                cases eq : (w.cells q).blk with
                | some b' => simp [ec, eq]
                | none =>
                  simp [ec, eq]
                  exact ended_valid _ _ _ _ _ (by simp) (by simp) _
    · rename_i h1; simp [h1]
  | tryIntoInner p =>
    simp only [step, Can]; split
    · rename_i h1
      cases e : (w.cells p).blk with
      | none => simpa using h1
      | some b =>
        simp only; split
        · split
          · split <;> simpa using h1
          · simpa using h1
        · simpa using h1
    · rename_i h1; simpa using h1
  | intoRaw p => simp only [step, Can]; split <;> simp_all
  | fromRaw p => simp only [step, Can]; split <;> simp_all
  | anonymize p => simp only [step, Can]; split <;> simp_all
  | increment k p =>
    simp only [step, Can]; split
    · rename_i h1; cases e : (w.cells p).blk <;> simp [h1]
    · rename_i h1; simp [h1]

example : Reach true .empty ∧ Can .empty (.create 3) ∧ ¬ Can .empty (.dropVal 3 false) := ⟨.empty, rfl, by simp [Can, World.empty]⟩

/-- **C102.** A handle gives access to the value as long as there is one. -/
theorem C102_deref {calm : Bool} {w : World} (h : Reach calm w) {k : Kind} (hk : k = .typed ∨ k = .dyn) {p : Nat} (hn : 0 < (w.cells p).n k) :
    step w (.deref k p) = .ok w ∧ (stored w p).isSome = true := by
  have h1 := (C102_can h (.deref k p)).2 ⟨hk, hn⟩
  have h2 := C102_no_ub h (.deref k p)
  refine ⟨?_, (C102_alive h p).2 (by rcases hk with rfl | rfl <;> simp only [owners] <;> omega)⟩
  simp only [step, hk, hn, and_self, if_true] at h1 h2 ⊢
  split <;> simp_all

end Verif.Props.Own
