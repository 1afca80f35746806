import Verif.Dyn.Lifetime
/-! C111: trait objects do not outlive what they hold. -/
namespace Verif.Props.Lifetime
open Verif.Dyn.Lifetime

/-- At that time, all borrows within a value of the type last. -/
def Alive (now : Nat) (t : Ty) : Prop := ∀ l ∈ t.lts, now < l

/-- The invariant: lifetimes of objects end before those of what they hold, also those of references; references have been given while the object lasted. -/
structure Inv (s : St) : Prop where
  objs : ∀ o ∈ s.objs, (∀ l ∈ o.content.lts, o.lt ≤ l) ∧ o.lt ≤ o.kind.own o.lt
  refs : ∀ r ∈ s.refs, (∀ l ∈ r.content.lts, r.b ≤ l) ∧ r.asked.decl = r.content.decl ∧ r.asked.lts.length = r.content.lts.length

theorem outlives_iff (t : Ty) (a : Nat) : t.outlives a = true ↔ ∀ l ∈ t.lts, a ≤ l := by simp [Ty.outlives]

theorem inv_step {s s' : St} (h : Inv s) (op : Op) (e : step s op = some s') : Inv s' := by
  have mem : ∀ {i o}, s.objs[i]? = some o → o ∈ s.objs := fun h => List.mem_of_getElem? h
  cases op with
  | tick => cases e; exact ⟨h.objs, h.refs⟩
  | make k t a =>
    simp only [step] at e
    split at e
    · rename_i hc; cases e
      refine ⟨fun o ho => ?_, h.refs⟩
      rcases List.mem_cons.1 ho with rfl | ho
      · exact ⟨(outlives_iff t a).1 hc.2.1, hc.2.2⟩
      · exact h.objs o ho
    · cases e
  | shorten i a =>
    simp only [step] at e
    split at e
    · rename_i o ho
      split at e
      · rename_i hc; cases e
        have := h.objs o (mem ho)
        refine ⟨fun o' ho' => ?_, h.refs⟩
        rcases List.mem_cons.1 ho' with rfl | ho'
        · refine ⟨fun l hl => Nat.le_trans hc.2 (this.1 l hl), ?_⟩
          have h2 := this.2
          revert h2
          cases o.kind <;> simp only [Kind.own] <;> omega
        · exact h.objs o' (List.mem_of_mem_eraseIdx ho')
      · cases e
    · cases e
  | asRef i b =>
    simp only [step] at e
    split at e
    · rename_i o ho
      split at e
      · rename_i hc; cases e
        refine ⟨fun o' ho' => ?_, h.refs⟩
        rcases List.mem_append.1 ho' with ho' | ho'
        · exact h.objs o' ho'
        · rw [List.mem_singleton] at ho'; subst ho'
          exact ⟨fun l hl => Nat.le_trans hc.2.1 ((h.objs o (mem ho)).1 l hl), Nat.le_refl _⟩
      · cases e
    · cases e
  | asMut i b =>
    simp only [step] at e
    split at e
    · rename_i o ho
      split at e
      · rename_i hc; cases e
        refine ⟨fun o' ho' => ?_, h.refs⟩
        rcases List.mem_append.1 ho' with ho' | ho'
        · exact h.objs o' ho'
        · rw [List.mem_singleton] at ho'; subst ho'
          exact ⟨fun l hl => Nat.le_trans hc.2.1 ((h.objs o (mem ho)).1 l hl), Nat.le_refl _⟩
      · cases e
    · cases e
  | intoSuper i =>
    simp only [step] at e
    split at e
    · rename_i o ho
      split at e
      · cases e
        refine ⟨fun o' ho' => ?_, h.refs⟩
        rcases List.mem_cons.1 ho' with rfl | ho'
        · exact h.objs _ (mem ho)
        · exact h.objs o' (List.mem_of_mem_eraseIdx ho')
      · cases e
    · cases e
  | clone i =>
    simp only [step] at e
    split at e
    · rename_i o ho
      split at e
      · cases e
        refine ⟨fun o' ho' => ?_, h.refs⟩
        rcases List.mem_append.1 ho' with ho' | ho'
        · exact h.objs o' ho'
        · rw [List.mem_singleton] at ho'; subst ho'; exact h.objs _ (mem ho)
      · cases e
    · cases e
  | downcast i asked b =>
    simp only [step] at e
    split at e
    · rename_i o ho
      split at e
      · rename_i hc
        split at e
        · rename_i hd; cases e
          refine ⟨h.objs, fun r hr => ?_⟩
          rcases List.mem_cons.1 hr with rfl | hr
          · exact ⟨fun l hl => Nat.le_trans hc.2.1 ((h.objs o (mem ho)).1 l hl), hd⟩
          · exact h.refs r hr
        · cases e; exact h
      · cases e
    · cases e
  | copy i j =>
    simp only [step] at e
    split at e
    · split at e
      · split at e
        · cases e; exact ⟨h.objs, h.refs⟩
        · cases e
      · cases e
    · cases e

theorem inv_run {s s' : St} (h : Inv s) (ops : List Op) (e : run s ops = some s') : Inv s' := by
  induction ops generalizing s with
  | nil => cases e; exact h
  | cons op ops ih =>
    simp only [run, Option.bind_eq_some_iff] at e
    obtain ⟨s1, h1, h2⟩ := e
    exact ih (inv_step h op h1) h2

theorem inv_init : Inv St.init := ⟨(fun _ h => by cases h), (fun _ h => by cases h)⟩

/-- C111: in all programs, whatever they downcast, an object that may still be used has all that it holds: the borrows within its value, and its value, if it is a reference. -/
theorem C111_outlives (ops : List Op) (s : St) (e : run St.init ops = some s) (o : Obj) (ho : o ∈ s.objs) (hl : s.now < o.lt) :
    Alive s.now o.content ∧ s.now < o.kind.own o.lt := by
  obtain ⟨h1, h2⟩ := (inv_run inv_init ops e).objs o ho
  exact ⟨fun l hm => Nat.lt_of_lt_of_le hl (h1 l hm), Nat.lt_of_lt_of_le hl h2⟩

/-- C111: objects are made of any value that lasts, for as long as all of its borrows do; in particular not only of `'static` ones. -/
theorem C111_made (s : St) (t : Ty) (a : Nat) (ha : s.now < a) : (step s (.make .box t a)).isSome = true ↔ ∀ l ∈ t.lts, a ≤ l := by
  simp only [step, Kind.own, ha, Nat.le_refl, and_true, true_and, ← outlives_iff]
  cases t.outlives a <;> simp

/-- C111: downcasts give the very value, and exactly to types of the same declaration. -/
theorem C111_downcast_iff (s s' : St) (i b : Nat) (asked : Ty) (o : Obj) (ho : s.objs[i]? = some o) (e : step s (.downcast i asked b) = some s') :
    ((∃ r, s'.refs = r :: s.refs ∧ r.content = o.content ∧ r.asked = asked ∧ r.b = b) ↔ asked.decl = o.content.decl ∧ asked.lts.length = o.content.lts.length) ∧
    b ≤ o.lt := by
  simp only [step, ho] at e
  split at e
  · rename_i hc
    refine ⟨?_, hc.2.1⟩
    split at e
    · rename_i hd; cases e
      exact ⟨fun _ => hd, fun _ => ⟨_, rfl, rfl, rfl, rfl⟩⟩
    · rename_i hd; cases e
      refine ⟨?_, fun h => absurd h hd⟩
      rintro ⟨r, hr, _⟩
      have := congrArg List.length hr
      simp at this
  · cases e

/-- The downcast asks for no longer lifetimes than the value has. -/
def Honest (s : St) : Op → Prop
  | .downcast i asked _ => ∀ o, s.objs[i]? = some o → ∀ (j t c : Nat), asked.lts[j]? = some t → o.content.lts[j]? = some c → t ≤ c
  | _ => True

/-- All downcasts of the program do. -/
def HonestRun (s : St) : List Op → Prop
  | [] => True
  | op :: ops => Honest s op ∧ ∀ s', step s op = some s' → HonestRun s' ops

/-- There is a borrow that may be used although it is over. -/
def Dangling (s : St) : Prop := ∃ b ∈ s.borrows, s.now < b.typed ∧ b.real ≤ s.now

structure Fair (s : St) : Prop where
  refs : ∀ r ∈ s.refs, ∀ (j t c : Nat), r.asked.lts[j]? = some t → r.content.lts[j]? = some c → t ≤ c
  borrows : ∀ b ∈ s.borrows, b.typed ≤ b.real

theorem fair_step {s s' : St} (h : Fair s) (op : Op) (hh : Honest s op) (e : step s op = some s') : Fair s' := by
  cases op with
  | tick => cases e; exact ⟨h.refs, h.borrows⟩
  | downcast i asked b =>
    simp only [step] at e
    split at e
    · rename_i o ho
      split at e
      · split at e
        · cases e
          refine ⟨fun r hr => ?_, h.borrows⟩
          rcases List.mem_cons.1 hr with rfl | hr
          · exact hh o ho
          · exact h.refs r hr
        · cases e; exact h
      · cases e
    · cases e
  | copy i j =>
    simp only [step] at e
    split at e
    · rename_i r hr
      split at e
      · rename_i t c ht hc
        split at e
        · cases e
          refine ⟨h.refs, fun b hb => ?_⟩
          rcases List.mem_cons.1 hb with rfl | hb
          · exact h.refs r (List.mem_of_getElem? hr) j t c ht hc
          · exact h.borrows b hb
        · cases e
      · cases e
    · cases e
  | make k t a => simp only [step] at e; split at e <;> first | (cases e; exact ⟨h.refs, h.borrows⟩) | cases e
  | shorten i a => simp only [step] at e; split at e <;> (try split at e) <;> first | (cases e; exact ⟨h.refs, h.borrows⟩) | cases e
  | asRef i a => simp only [step] at e; split at e <;> (try split at e) <;> first | (cases e; exact ⟨h.refs, h.borrows⟩) | cases e
  | asMut i a => simp only [step] at e; split at e <;> (try split at e) <;> first | (cases e; exact ⟨h.refs, h.borrows⟩) | cases e
  | intoSuper i => simp only [step] at e; split at e <;> (try split at e) <;> first | (cases e; exact ⟨h.refs, h.borrows⟩) | cases e
  | clone i => simp only [step] at e; split at e <;> (try split at e) <;> first | (cases e; exact ⟨h.refs, h.borrows⟩) | cases e

/-- C111: programs whose downcasts do not ask for longer lifetimes never have a borrow that is over.  Partial: the compiler accepts other downcasts, see `C111_downcast_refuted`. -/
theorem C111_borrows_partial (ops : List Op) (hh : HonestRun St.init ops) (s : St) (e : run St.init ops = some s) : ¬ Dangling s := by
  have key : ∀ (ops : List Op) (s0 : St), Fair s0 → HonestRun s0 ops → run s0 ops = some s → Fair s := by
    intro ops
    induction ops with
    | nil => intro s0 h _ e; cases e; exact h
    | cons op ops ih =>
      intro s0 h hh e
      simp only [run, Option.bind_eq_some_iff] at e
      obtain ⟨s1, h1, h2⟩ := e
      exact ih s1 (fair_step h op hh.1 h1) (hh.2 s1 h1) h2
  have hf := key ops St.init ⟨(fun _ h => by cases h), (fun _ h => by cases h)⟩ hh e
  rintro ⟨b, hb, h1, h2⟩
  have := hf.borrows b hb
  omega

/-- C111 does not hold of downcasts, of any kind of object: safe code makes an object of a value with a borrow, downcasts it to the same type with a longer lifetime, and has a borrow
that is over. -/
theorem C111_downcast_refuted (k : Kind) (d l l' : Nat) (hl : 0 < l) (hk : l ≤ k.own l) (h : l < l') :
    ∃ s, run St.init (.make k ⟨d, [l]⟩ l :: .downcast 0 ⟨d, [l']⟩ l :: .copy 0 0 :: List.replicate l .tick) = some s ∧ Dangling s := by
  have ticks : ∀ n (s : St), run s (List.replicate n .tick) = some { s with now := s.now + n } := by
    intro n
    induction n with
    | zero => intro s; rfl
    | succ n ih => intro s; simp only [List.replicate_succ, run, step, Option.bind_some, ih]; simp only [Option.some.injEq, St.mk.injEq, and_true]; omega
  refine ⟨⟨l, [⟨k, l, ⟨d, [l]⟩⟩], [⟨l, ⟨d, [l']⟩, ⟨d, [l]⟩⟩], [⟨l', l⟩]⟩, ?_, ⟨⟨l', l⟩, by simp, h, Nat.le_refl _⟩⟩
  have hle : l ≤ l' := by omega
  simp [run, step, St.init, Ty.outlives, hl, hk, hle, ticks]

example : ∃ s, run St.init [.make .box ⟨7, [3]⟩ 3, .downcast 0 ⟨7, [100]⟩ 3, .copy 0 0, .tick, .tick, .tick] = some s ∧ Dangling s :=
  C111_downcast_refuted .box 7 3 100 (by decide) (by decide) (by decide)

/-- An object is made of a value with two borrows, lent, shared, downcast to what it is; then time passes. -/
example : (run St.init [.make .arc ⟨7, [5, 9]⟩ 4, .clone 0, .asRef 1 3, .intoSuper 2, .downcast 0 ⟨7, [4, 9]⟩ 2, .copy 0 1, .tick]).map (fun s => (s.now, s.objs.length, s.borrows)) =
    some (1, 3, [⟨9, 9⟩]) := by decide +kernel
/-- It is not made for longer than its borrows, and a reference to it is not kept for longer than the object. -/
example : run St.init [.make .box ⟨7, [5]⟩ 6] = none ∧ run St.init [.make .box ⟨7, [5]⟩ 4, .asRef 0 5] = none ∧ run St.init [.make (.mut 3) ⟨7, [5]⟩ 4] = none := by decide +kernel
example : HonestRun St.init [.make .box ⟨7, [5]⟩ 4, .downcast 0 ⟨7, [4]⟩ 2] := by
  refine ⟨trivial, fun s e => ⟨fun o ho j t c ht hc => ?_, fun _ _ => trivial⟩⟩
  cases e
  cases ho
  cases j with
  | zero => cases ht; cases hc; decide
  | succ j => cases ht

end Verif.Props.Lifetime
