import Verif.Future.Resolved
/-! C57: `MaybeResolved` gives its value once and stays pending afterwards; its future is dropped once.

`St` is what the enum is meant to be; `Rep` (of `Verif.Sum.Spec`) says which bytes represent it. -/
namespace Verif.Props.Resolved
open Verif.Layout Verif.Sum Verif.Future

/-- The states of the enum (future.rs:322-334). -/
inductive St where
  | resolved (v : Val)
  | empty
  | pending (w : Val)

/-- The state as a value of `Result<T, Result<(), F>>`. -/
def St.val : St → Val
  | .resolved v => .ok v
  | .empty => .err (.ok (.raw []))
  | .pending w => .err (.err w)

/-- What `poll` is meant to do: a value is moved out and nothing is left; a future is polled, and dropped when it is ready.  Gives the state afterwards,
the value if it is ready, and the future that was dropped. -/
def St.poll (fut : Val → Val × Option Val) : St → St × Option Val × Option Val
  | .resolved v => (.empty, some v, none)
  | .empty => (.empty, none, none)
  | .pending w =>
    match fut w with
    | (w', none) => (.pending w', none, none)
    | (w', some v) => (.empty, some v, some w')

/-- Calls one after the other. -/
def St.polls : List (Val → Val × Option Val) → St → St × List (Option Val) × List (Option Val)
  | [], s => (s, [], [])
  | fut :: futs, s =>
    let p := s.poll fut
    let r := St.polls futs p.1
    (r.1, p.2.1 :: r.2.1, p.2.2 :: r.2.2)

/-- Both sides are present and related, or none is. -/
def Both {α β : Type} (R : α → β → Prop) : Option α → Option β → Prop
  | none, none => True
  | some a, some b => R a b
  | _, _ => False

/-- Lists of the same length, related one by one. -/
def Each {α β : Type} (R : α → β → Prop) : List α → List β → Prop
  | [], [] => True
  | a :: l, b :: l' => R a b ∧ Each R l l'
  | _, _ => False

/-- The inner future's `poll`, on values (`futV`) and on bytes (`fut`): it gives bytes that represent the future afterwards (unused bits may be anything),
and bytes that represent its value. -/
def Agrees (t f : Ty) (futV : Val → Val × Option Val) (fut : Mem → Mem × Option Mem) : Prop :=
  ∀ w b, Rep f w b → Rep f (futV w).1 (fut b).1 ∧ Both (Rep t) (futV w).2 (fut b).2

/-- What is dropped is dropped as the variant `Pending`. -/
def DropsFuture (f : Ty) (w : Val) (d : Nat × Mem) : Prop := d.1 = 2 ∧ Rep f w d.2

/-- One call does what it is meant to, for the types that are `Calm`.  Missing from C57: the other types, for which it is false (`C57_twice_refuted`,
`C57_revived_refuted`, `C57_unguarded_refuted`). -/
theorem C57_poll_partial (t f : Ty) (h : (mrTy t f).WF) (hc : Calm t f) (s : St) (m : Mem) (hm : Rep (mrTy t f) s.val m)
    (futV : Val → Val × Option Val) (fut : Mem → Mem × Option Mem) (hf : Agrees t f futV fut) :
    Rep (mrTy t f) (s.poll futV).1.val (mrPoll t f fut m).mem ∧
    Both (Rep t) (s.poll futV).2.1 (mrPoll t f fut m).out ∧
    Both (DropsFuture f) (s.poll futV).2.2 (mrPoll t f fut m).drop := by
  have he := emptyBytes_rep h
  have hwf : (restTy f).WF := h.2.1
  cases s with
  | resolved v =>
    have h1 : isOk t.lay (restTy f).lay m = true := hm.1
    have e : mrPoll t f fut m = ⟨emptyBytes t f, some (okPtr t.lay (restTy f).lay m), none⟩ := by
      unfold mrPoll; simp only [h1, if_true, okGuardDrop_quiet hc.ok]
    rw [e]
    exact ⟨he, hm.2, trivial⟩
  | empty =>
    have h1 : isOk t.lay (restTy f).lay m = false := hm.1
    have h2 : isOk Ty.unit.lay f.lay (errPtr t.lay (restTy f).lay m) = true := hm.2.1
    have e : mrPoll t f fut m = ⟨errGuardWrite t.lay (restTy f).lay m (okGuardDrop Ty.unit.lay f.lay (errPtr t.lay (restTy f).lay m)), none, none⟩ := by
      unfold mrPoll; simp only [h1, h2, if_true, Bool.false_eq_true, if_false]
    rw [e]
    exact ⟨errGuardWrite_rep h h1 (okGuardDrop_rep hwf hm.2), trivial, trivial⟩
  | pending w =>
    have h1 : isOk t.lay (restTy f).lay m = false := hm.1
    have h2 : isOk Ty.unit.lay f.lay (errPtr t.lay (restTy f).lay m) = false := hm.2.1
    have hw : Rep f w (errPtr Ty.unit.lay f.lay (errPtr t.lay (restTy f).lay m)) := hm.2.2
    obtain ⟨g1, g2⟩ := hf w _ hw
    cases hb : fut (errPtr Ty.unit.lay f.lay (errPtr t.lay (restTy f).lay m)) with
    | mk g r =>
      rw [hb] at g1 g2
      cases hv : futV w with
      | mk w' r' =>
        rw [hv] at g1 g2
        dsimp only at g1 g2
        cases r with
        | none =>
          cases r' with
          | some _ => exact g2.elim
          | none =>
            have e : mrPoll t f fut m = ⟨errGuardWrite t.lay (restTy f).lay m
                (errGuardWrite Ty.unit.lay f.lay (errPtr t.lay (restTy f).lay m) g), none, none⟩ := by
              unfold mrPoll; simp only [h1, h2, hb, Bool.false_eq_true, if_false]
            have e' : (St.pending w).poll futV = (.pending w', none, none) := by simp [St.poll, hv]
            rw [e, e']
            exact ⟨errGuardWrite_rep h h1 (errGuardWrite_rep hwf h2 g1), trivial, trivial⟩
        | some vb =>
          cases r' with
          | none => exact g2.elim
          | some v =>
            have e : mrPoll t f fut m = ⟨errGuardWrite t.lay (restTy f).lay (emptyBytes t f)
                (errGuardDrop Ty.unit.lay f.lay (errPtr t.lay (restTy f).lay (emptyBytes t f))), some vb,
                some ((mrTree t f).dispatch 0 (m.write (errOffset t.lay (restTy f).lay) (restTy f).lay.size
                  ((errPtr t.lay (restTy f).lay m).write (errOffset Ty.unit.lay f.lay) f.lay.size g)))⟩ := by
              unfold mrPoll; simp only [h1, h2, hb, Bool.false_eq_true, if_false]
            have e' : (St.pending w).poll futV = (.empty, some v, some w') := by simp [St.poll, hv]
            rw [e, e']
            refine ⟨?_, g2, ?_⟩
            · rw [errGuardDrop_quiet hc.err]
              exact errGuardWrite_rep h he.1 he.2
            · -- the inner enum with what the future wrote is still `Err`
              have hin : Rep (restTy f) (.err w') ((errPtr t.lay (restTy f).lay m).write (errOffset Ty.unit.lay f.lay) f.lay.size g) := by
                rw [← errGuardWrite_quiet hc.err]
                exact errGuardWrite_rep hwf h2 g1
              generalize hi : (errPtr t.lay (restTy f).lay m).write (errOffset Ty.unit.lay f.lay) f.lay.size g = inner at hin
              have hout : Rep (mrTy t f) (.err (.err w')) (m.write (errOffset t.lay (restTy f).lay) (restTy f).lay.size inner) := by
                refine ⟨?_, rep_congr hwf hin (write_same m inner _ _ _)⟩
                rw [← h1]
                unfold isOk
                apply isOk_congr
                intro o ho
                unfold Mem.write
                rw [if_neg]
                have := hc.outside o ho
                omega
              have hout' : Rep (mrTree t f).ty ((mrTree t f).val 2 w') (m.write (errOffset t.lay (restTy f).lay) (restTy f).lay.size inner) := by
                rw [mrTree_ty, mrTree_eq]; exact hout
              have := dispatch_rep (t := mrTree t f) (i := 2) (ty := f) (by rw [mrTree_leaves]; rfl) 0 hout'
              exact ⟨by simpa using this.1, this.2⟩

/-- Any number of calls, with whatever the inner future does in each. -/
theorem C57_history_partial (t f : Ty) (h : (mrTy t f).WF) (hc : Calm t f)
    (steps : List ((Val → Val × Option Val) × (Mem → Mem × Option Mem))) (hf : ∀ p ∈ steps, Agrees t f p.1 p.2)
    (s : St) (m : Mem) (hm : Rep (mrTy t f) s.val m) :
    let spec := St.polls (steps.map Prod.fst) s
    let real := mrPolls t f (steps.map Prod.snd) m
    Rep (mrTy t f) spec.1.val real.1 ∧ Each (Both (Rep t)) spec.2.1 real.2.1 ∧
      Each (Both (DropsFuture f)) spec.2.2 real.2.2 := by
  induction steps generalizing s m with
  | nil => exact ⟨hm, trivial, trivial⟩
  | cons p steps ih =>
    obtain ⟨h1, h2, h3⟩ := C57_poll_partial t f h hc s m hm p.1 p.2 (hf p List.mem_cons_self)
    obtain ⟨i1, i2, i3⟩ := ih (fun q hq => hf q (List.mem_cons_of_mem _ hq)) _ _ h1
    exact ⟨i1, ⟨h2, i2⟩, ⟨h3, i3⟩⟩

/-- The end: the drop glue that runs is the one of the state, on its bytes. -/
theorem C57_drop (t f : Ty) (m : Mem) :
    (∀ v, Rep (mrTy t f) (St.resolved v).val m → ((mrTree t f).dispatch 0 m).1 = 0 ∧ Rep t v ((mrTree t f).dispatch 0 m).2) ∧
    (Rep (mrTy t f) St.empty.val m → ((mrTree t f).dispatch 0 m).1 = 1) ∧
    (∀ w, Rep (mrTy t f) (St.pending w).val m → ((mrTree t f).dispatch 0 m).1 = 2 ∧ Rep f w ((mrTree t f).dispatch 0 m).2) := by
  refine ⟨fun v hr => ?_, fun hr => ?_, fun w hr => ?_⟩
  · have : Rep (mrTree t f).ty ((mrTree t f).val 0 v) m := by rw [mrTree_ty, mrTree_eq]; exact hr
    simpa using dispatch_rep (t := mrTree t f) (i := 0) (ty := t) (by rw [mrTree_leaves]; rfl) 0 this
  · have : Rep (mrTree t f).ty ((mrTree t f).val 1 (.raw [])) m := by rw [mrTree_ty, mrTree_eq]; exact hr
    simpa using (dispatch_rep (t := mrTree t f) (i := 1) (ty := .unit) (by rw [mrTree_leaves]; rfl) 0 this).1
  · have : Rep (mrTree t f).ty ((mrTree t f).val 2 w) m := by rw [mrTree_ty, mrTree_eq]; exact hr
    simpa using dispatch_rep (t := mrTree t f) (i := 2) (ty := f) (by rw [mrTree_leaves]; rfl) 0 this

theorem polls_empty (futs : List (Val → Val × Option Val)) :
    St.polls futs .empty = (.empty, List.replicate futs.length none, List.replicate futs.length none) := by
  induction futs with
  | nil => rfl
  | cons a l ih => simp [St.polls, St.poll, ih, List.replicate_succ]

/-- What the meant behaviour is, spelled out: calls answer `Pending` until one answers with the value, which is the one the enum was made with or the one
its future gave; after it all calls answer `Pending`.  The future is dropped in the call that gives its value and in no other, nothing else is. -/
theorem C57_once (futs : List (Val → Val × Option Val)) (s : St) :
    let r := St.polls futs s
    (∀ o ∈ r.2.1, o = none) ∧ (∀ o ∈ r.2.2, o = none) ∧ (s ≠ .empty → futs = [] ∨ ∃ w, r.1 = .pending w) ∨
    ∃ i j v, r.2.1 = List.replicate i none ++ some v :: List.replicate j none ∧ r.1 = .empty ∧
      ((s = .resolved v ∧ i = 0 ∧ ∀ o ∈ r.2.2, o = none) ∨
       ∃ w w', s = .pending w ∧ r.2.2 = List.replicate i none ++ some w' :: List.replicate j none) := by
  induction futs generalizing s with
  | nil => exact Or.inl ⟨by simp [St.polls], by simp [St.polls], fun _ => Or.inl rfl⟩
  | cons fut futs ih =>
    cases s with
    | empty =>
      left
      rw [polls_empty]
      exact ⟨fun o ho => List.eq_of_mem_replicate ho, fun o ho => List.eq_of_mem_replicate ho, fun h => absurd rfl h⟩
    | resolved v =>
      right
      refine ⟨0, futs.length, v, ?_⟩
      simp only [St.polls, St.poll, polls_empty]
      refine ⟨by simp, trivial, Or.inl ⟨trivial, trivial, ?_⟩⟩
      intro o ho
      rcases List.mem_cons.1 ho with rfl | ho
      · rfl
      · exact List.eq_of_mem_replicate ho
    | pending w =>
      cases hv : fut w with
      | mk w' r' =>
        cases r' with
        | none =>
          have e : (St.pending w).poll fut = (.pending w', none, none) := by simp [St.poll, hv]
          simp only [St.polls, e]
          rcases ih (.pending w') with ⟨h1, h2, h3⟩ | ⟨i, j, v, h1, h2, h3⟩
          · left
            refine ⟨?_, ?_, fun _ => Or.inr ?_⟩
            · intro o ho; rcases List.mem_cons.1 ho with rfl | ho
              · rfl
              · exact h1 o ho
            · intro o ho; rcases List.mem_cons.1 ho with rfl | ho
              · rfl
              · exact h2 o ho
            · rcases h3 nofun with rfl | h
              · exact ⟨w', rfl⟩
              · exact h
          · right
            rcases h3 with ⟨h3, _⟩ | ⟨_, x, _, h3⟩
            · cases h3
            · exact ⟨i + 1, j, v, by rw [h1]; rfl, h2, Or.inr ⟨w, x, rfl, by rw [h3]; rfl⟩⟩
        | some v =>
          have e : (St.pending w).poll fut = (.empty, some v, some w') := by simp [St.poll, hv]
          right
          simp only [St.polls, e, polls_empty]
          exact ⟨0, futs.length, v, by simp, trivial, Or.inr ⟨w, w', rfl, by simp⟩⟩

theorem wf_u64 : Ty.u64.WF := ⟨⟨3, rfl⟩, trivial, by simp [Fv.offsets]⟩
theorem wf_u32 : Ty.u32.WF := ⟨⟨2, rfl⟩, trivial, by simp [Fv.offsets]⟩
theorem wf_u8 : Ty.u8.WF := ⟨⟨0, rfl⟩, trivial, by simp [Fv.offsets]⟩
theorem wf_unit : Ty.unit.WF := ⟨⟨0, rfl⟩, trivial, by simp [Fv.offsets]⟩
theorem wf_ref : Ty.ref.WF := ⟨⟨3, rfl⟩, by simp [Fv.WF, Ty.nzHoles, Fv.IsBytes, Fv.offsets], by simp [Ty.nzHoles, Fv.offsets]⟩
theorem wf_nz32 : Ty.nonZeroU32.WF := ⟨⟨2, rfl⟩, by simp [Fv.WF, Ty.nzHoles, Fv.IsBytes, Fv.offsets], by simp [Ty.nzHoles, Fv.offsets]⟩

/-- The types for which it works include a boxed future of a number, of nothing and of a pair of pointers. -/
example : Calm .u64 .ref ∧ (mrTy .u64 .ref).WF ∧ Calm (.tuple2 .ref .ref) .ref ∧ (mrTy (.tuple2 .ref .ref) .ref).WF ∧ Calm .unit .ref ∧
    (mrTy .unit .ref).WF := by
  refine ⟨⟨by decide +kernel, by decide +kernel, by decide +kernel⟩, ⟨wf_u64, ⟨wf_unit, wf_ref, by decide +kernel⟩, by decide +kernel⟩,
    ⟨by decide +kernel, by decide +kernel, by decide +kernel⟩, ⟨⟨wf_ref, wf_ref⟩, ⟨wf_unit, wf_ref, by decide +kernel⟩, by decide +kernel⟩,
    ⟨by decide +kernel, by decide +kernel, by decide +kernel⟩, ⟨wf_unit, ⟨wf_unit, wf_ref, by decide +kernel⟩, by decide +kernel⟩⟩

/-- Where setting the determinant of `Resolved` writes to the enum, the guard of `match_mut` turns the enum back into `Resolved`: the next call gives a value
again, and dropping the enum runs the drop glue of the value that was moved out. -/
theorem C57_twice_refuted (t f : Ty) (h : (mrTy t f).WF) (hl : (provider t.lay (restTy f).lay).det.okQuiet = false) (m : Mem) (v : Val)
    (hm : Rep (mrTy t f) (St.resolved v).val m) (fut fut' : Mem → Mem × Option Mem) :
    (mrPoll t f fut m).out.isSome = true ∧ (mrPoll t f fut' (mrPoll t f fut m).mem).out.isSome = true ∧
    ((mrTree t f).dispatch 0 (mrPoll t f fut m).mem).1 = 0 := by
  have h1 : isOk t.lay (restTy f).lay m = true := hm.1
  have e : mrPoll t f fut m = ⟨okGuardDrop t.lay (restTy f).lay (emptyBytes t f), some (okPtr t.lay (restTy f).lay m), none⟩ := by
    unfold mrPoll; simp only [h1, if_true]
  have h2 := okGuardDrop_loud (ty_good h.1) (ty_good h.2.1) hl (emptyBytes t f)
  rw [e]
  refine ⟨rfl, ?_, ?_⟩
  · unfold mrPoll; simp only [h2, if_true]; rfl
  · have h2' : isOk (Tree.leaf t).ty.lay (Tree.node (.leaf .unit) (.leaf f)).ty.lay (okGuardDrop t.lay (restTy f).lay (emptyBytes t f)) = true := h2
    rw [mrTree_eq]; unfold Tree.dispatch; rw [if_pos h2']; rfl

/-- For instance a value of type `(Box<_>, u8)` with a boxed future: the second value holds a null pointer, it is not even a value of its type. -/
theorem C57_null_refuted : (mrTy (.tuple2 .ref .u8) .ref).WF ∧ (provider (Ty.tuple2 .ref .u8).lay (restTy .ref).lay).det.okQuiet = false ∧
    ∀ (m : Mem) (v : Val), Rep (mrTy (.tuple2 .ref .u8) .ref) (St.resolved v).val m → ∀ fut fut',
      ∃ b, (mrPoll (.tuple2 .ref .u8) .ref fut' (mrPoll (.tuple2 .ref .u8) .ref fut m).mem).out = some b ∧ (∀ i, i < 8 → b i = 0) ∧
        ∀ v', ¬ Rep (.tuple2 .ref .u8) v' b := by
  have hwf : (mrTy (.tuple2 .ref .u8) .ref).WF := ⟨⟨wf_ref, wf_u8⟩, ⟨wf_unit, wf_ref, by decide +kernel⟩, by decide +kernel⟩
  have hl : (provider (Ty.tuple2 .ref .u8).lay (restTy .ref).lay).det.okQuiet = false := by decide +kernel
  refine ⟨hwf, hl, fun m v hm fut fut' => ?_⟩
  have h1 : isOk (Ty.tuple2 .ref .u8).lay (restTy .ref).lay m = true := hm.1
  have e : mrPoll (.tuple2 .ref .u8) .ref fut m = ⟨okGuardDrop (Ty.tuple2 .ref .u8).lay (restTy .ref).lay (emptyBytes (.tuple2 .ref .u8) .ref), some (okPtr (Ty.tuple2 .ref .u8).lay (restTy .ref).lay m), none⟩ := by
    unfold mrPoll; simp only [h1, if_true]
  have h2 := okGuardDrop_loud (ty_good hwf.1) (ty_good hwf.2.1) hl (emptyBytes (.tuple2 .ref .u8) .ref)
  rw [e]
  have e2 : (mrPoll (.tuple2 .ref .u8) .ref fut' (okGuardDrop (Ty.tuple2 .ref .u8).lay (restTy .ref).lay (emptyBytes (.tuple2 .ref .u8) .ref))).out =
      some (okPtr (Ty.tuple2 .ref .u8).lay (restTy .ref).lay (okGuardDrop (Ty.tuple2 .ref .u8).lay (restTy .ref).lay (emptyBytes (.tuple2 .ref .u8) .ref))) := by
    unfold mrPoll; simp only [h2, if_true]
  dsimp only
  rw [e2]
  have hz : ∀ i, i < 8 → okPtr (Ty.tuple2 .ref .u8).lay (restTy .ref).lay
      (okGuardDrop (Ty.tuple2 .ref .u8).lay (restTy .ref).lay (emptyBytes (.tuple2 .ref .u8) .ref)) i = 0 := by
    decide +kernel
  refine ⟨_, rfl, hz, fun v' hr => ?_⟩
  generalize okPtr (Ty.tuple2 .ref .u8).lay (restTy .ref).lay
      (okGuardDrop (Ty.tuple2 .ref .u8).lay (restTy .ref).lay (emptyBytes (.tuple2 .ref .u8) .ref)) = b at hz hr
  cases v' with
  | pair x y =>
    have hx : Rep .ref x b := hr.1
    refine rep_not_forbidden wf_ref hx ?_
    simp [Ty.ref, Ty.lay, Lay.prim, Ty.nzHoles, Fv.Forbids, hz]
  | _ => exact hr.elim

/-- Where setting the determinant of `Pending` writes to the enum, a future that is ready comes back: the enum is `Pending` again with whatever bytes are
there, and the next call polls them. -/
theorem C57_revived_refuted (t f : Ty) (h : (mrTy t f).WF) (hl : (provider Ty.unit.lay f.lay).det.errQuiet = false) (m : Mem) (w : Val)
    (hm : Rep (mrTy t f) (St.pending w).val m) (fut : Mem → Mem × Option Mem)
    (hr : (fut (errPtr Ty.unit.lay f.lay (errPtr t.lay (restTy f).lay m))).2.isSome = true) :
    ((mrTree t f).dispatch 0 (mrPoll t f fut m).mem).1 = 2 := by
  have h1 : isOk t.lay (restTy f).lay m = false := hm.1
  have h2 : isOk Ty.unit.lay f.lay (errPtr t.lay (restTy f).lay m) = false := hm.2.1
  cases hb : fut (errPtr Ty.unit.lay f.lay (errPtr t.lay (restTy f).lay m)) with
  | mk g r =>
    rw [hb] at hr
    cases r with
    | none => cases hr
    | some vb =>
      have e : (mrPoll t f fut m).mem = errGuardWrite t.lay (restTy f).lay (emptyBytes t f)
          (errGuardDrop Ty.unit.lay f.lay (errPtr t.lay (restTy f).lay (emptyBytes t f))) := by
        unfold mrPoll; simp only [h1, h2, hb, Bool.false_eq_true, if_false]
      rw [e]
      have he := emptyBytes_rep h
      have hin := errGuardDrop_loud (ty_good h.2.1.1) (ty_good h.2.1.2.1) hl (errPtr t.lay (restTy f).lay (emptyBytes t f))
      generalize errGuardDrop Ty.unit.lay f.lay (errPtr t.lay (restTy f).lay (emptyBytes t f)) = src at hin ⊢
      obtain ⟨g1, g2⟩ := errGuard (m := emptyBytes t f) (src := src) (ty_good h.1) (ty_good h.2.1) h.2.2 he.1 (fun hf => hf)
      have g3 : isOk Ty.unit.lay f.lay (errPtr t.lay (restTy f).lay (errGuardWrite t.lay (restTy f).lay (emptyBytes t f) src)) = false := by
        have s := result_sound (ty_good h.2.1.1) (ty_good h.2.1.2.1) h.2.1.2.2
        unfold isOk at hin ⊢
        rw [← s.stable _ _ g2]; exact hin
      have g1' : isOk (Tree.leaf t).ty.lay (Tree.node (.leaf .unit) (.leaf f)).ty.lay
        (errGuardWrite t.lay (restTy f).lay (emptyBytes t f) src) = false := g1
      have g3' : isOk (Tree.leaf .unit).ty.lay (Tree.leaf f).ty.lay (errPtr (Tree.leaf t).ty.lay (Tree.node (.leaf .unit) (.leaf f)).ty.lay
        (errGuardWrite t.lay (restTy f).lay (emptyBytes t f) src)) = false := g3
      rw [mrTree_eq]
      simp only [Tree.dispatch, g1', g3', Bool.false_eq_true, if_false]
      rfl

/-- For instance a future that is a deadline and a counter, `(u64, u8)`. -/
example : (mrTy .u64 (.tuple2 .u64 .u8)).WF ∧ (provider Ty.unit.lay (Ty.tuple2 .u64 .u8).lay).det.errQuiet = false :=
  ⟨⟨wf_u64, ⟨wf_unit, ⟨wf_u64, wf_u8⟩, by decide +kernel⟩, by decide +kernel⟩, by decide +kernel⟩

/-- A value type and a future type such that the niche of the former is in the padding of the latter. -/
def valTy : Ty := .tuple3 .u64 .u32 .nonZeroU32
def futTy : Ty := .tuple2 .ref .u32

/-- `poll` of a future that is ready at once and writes itself as a whole, padding included. -/
def padFut (b : Mem) : Mem × Option Mem := (b.write 12 4 (fun _ => 1), some (fun _ => 1))

theorem padFut_agrees : ∃ v, Agrees valTy futTy (fun w => (w, some v)) padFut := by
  refine ⟨.pair (.pair (.raw (List.replicate 8 1)) (.raw (List.replicate 4 1))) (.raw (List.replicate 4 1)), fun w b hr => ⟨?_, ?_⟩⟩
  · refine rep_congr (t := futTy) ⟨wf_ref, wf_u32⟩ hr ?_
    intro i hi n hn hu
    by_cases h : 12 ≤ i
    · exfalso
      apply hu
      have hs : futTy.lay.size = 16 := by decide +kernel
      have he : futTy.lay.ub = [(12, 255), (13, 255), (14, 255), (15, 255)] := by decide +kernel
      rw [he]
      have : i = 12 ∨ i = 13 ∨ i = 14 ∨ i = 15 := by omega
      refine ⟨255, by simp; omega, ?_⟩
      have : n = 0 ∨ n = 1 ∨ n = 2 ∨ n = 3 ∨ n = 4 ∨ n = 5 ∨ n = 6 ∨ n = 7 := by omega
      rcases this with h | h | h | h | h | h | h | h <;> subst h <;> decide
    · simp only [padFut, Mem.write]; rw [if_neg (by omega)]
  · have e : ∀ k, ∀ i (h : i < (List.replicate k (1 : Byte)).length), (1 : Byte) = (List.replicate k (1 : Byte))[i] := by
      intro k i h; simp
    refine ⟨⟨⟨rfl, e 8, fun h => h⟩, ⟨rfl, e 4, fun h => h⟩⟩, ⟨rfl, e 4, ?_⟩⟩
    simp [Ty.nzHoles, Fv.Forbids, Mem.at]

/-- `ptr::replace` reads the enum before the guards have repaired it.  Where the future wrote over the determinant of `Resolved`, which is in its padding, the
old enum is taken for `Resolved` and dropped as such: the future is not dropped, its bytes are dropped as a value.  Here both guards write nothing. -/
theorem C57_unguarded_refuted : (mrTy valTy futTy).WF ∧ (provider valTy.lay (restTy futTy).lay).det.okQuiet = true ∧
    (provider Ty.unit.lay futTy.lay).det.errQuiet = true ∧
    ∃ v w m, Agrees valTy futTy (fun w => (w, some v)) padFut ∧ Rep (mrTy valTy futTy) (St.pending w).val m ∧
      ∃ d, (mrPoll valTy futTy padFut m).drop = some d ∧ d.1 = 0 := by
  have hf : futTy.WF := ⟨wf_ref, wf_u32⟩
  have hwf : (mrTy valTy futTy).WF := ⟨⟨⟨wf_u64, wf_u32⟩, wf_nz32⟩, ⟨wf_unit, hf, by decide +kernel⟩, by decide +kernel⟩
  obtain ⟨v, hv⟩ := padFut_agrees
  refine ⟨hwf, by decide +kernel, by decide +kernel, v, .pair (.raw (List.replicate 8 1)) (.raw (List.replicate 4 1)),
    mkErr valTy.lay (restTy futTy).lay (mkErr Ty.unit.lay futTy.lay (fun _ => 1)), hv, ?_, ?_⟩
  · refine mkErr_rep hwf (mkErr_rep hwf.2.1 ?_)
    have e : ∀ k, ∀ i (h : i < (List.replicate k (1 : Byte)).length), (1 : Byte) = (List.replicate k (1 : Byte))[i] := by
      intro k i h; simp
    refine ⟨⟨rfl, e 8, ?_⟩, ⟨rfl, e 4, fun h => h⟩⟩
    simp [Ty.nzHoles, Fv.Forbids]
  · have h1 : ((mrPoll valTy futTy padFut (mkErr valTy.lay (restTy futTy).lay (mkErr Ty.unit.lay futTy.lay (fun _ => 1)))).drop.map Prod.fst) = some 0 := by
      decide +kernel
    cases hd : (mrPoll valTy futTy padFut (mkErr valTy.lay (restTy futTy).lay (mkErr Ty.unit.lay futTy.lay (fun _ => 1)))).drop with
    | none => rw [hd] at h1; cases h1
    | some d => rw [hd] at h1; exact ⟨d, rfl, by simpa using h1⟩

end Verif.Props.Resolved
