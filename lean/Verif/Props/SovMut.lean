import Verif.Vec.SovMut
import Verif.Props.Sov
import Verif.Props.ForgetIff

/-! Property C99: mutable access to the elements of a `SingleOrVec`. -/
namespace Verif.Props.SovMut
open Verif.Vec Verif.Layout Verif.Sum Verif.Props.Cell Verif.Props.ForgetIff Verif.Props.Sov
variable {α : Type}

/-! ### The single element -/

theorem single_wf {t : Ty} (h : t.WF) : (singleTy t).WF := ⟨h, Props.Sum.pow2_1, trivial, by simp [Fv.offsets]⟩

theorem single_rep {t : Ty} {v : Val} {m : Mem} : Rep (singleTy t) (.pair v (.raw [])) m ↔ Rep t v m :=
  ⟨fun h => h.1, fun h => ⟨h, rfl, fun i hi => absurd hi (Nat.not_lt_zero i), fun h => h⟩⟩

theorem single_size {t : Ty} (h : t.WF) (hs : t.lay.size % t.lay.align = 0) : (singleTy t).lay.size = t.lay.size := by
  have hp := (ty_good h).align.pos
  have e1 : (Lay.fieldPair t.lay Ty.unit.lay).size = t.lay.size := by
    show (Lay.alignedAfter Ty.unit.lay t.lay.size).size = _
    unfold Lay.alignedAfter
    dsimp only
    rw [nextMul_self (show t.lay.size % Ty.unit.lay.align = 0 from Nat.mod_one _)]
    exact Nat.zero_add _
  have e2 : (Lay.fieldPair t.lay Ty.unit.lay).align = t.lay.align := Nat.max_eq_left hp
  show nextMul (Lay.fieldPair t.lay Ty.unit.lay).size (Lay.fieldPair t.lay Ty.unit.lay).align = _
  rw [e1, e2, nextMul_self hs]

/-- A `SingleOrVec<T>` of the single value `v`. -/
def Holds (t : Ty) (v : Val) (m : Mem) : Prop := Rep (sovTy t) (.ok (.pair v (.raw []))) m

theorem write_self (m : Mem) (o n : Nat) : m.write o n (m.at o) = m := by
  funext i
  unfold Mem.write Mem.at
  split
  · rw [show o + (i - o) = i by omega]
  · rfl

/-- Dropping the guard is harmless: it can only put back the tag. -/
theorem drop_holds {t : Ty} (h : (sovTy t).WF) {v : Val} {m : Mem} (hm : Holds t v m) : Holds t v (ev t m .drop) := by
  have := Props.Sum.C10_ok_guard_partial (singleTy t) vecTy h m (okPtr (singleTy t).lay vecTy.lay m) _ _ hm hm.2
  unfold okGuardWrite okPtr at this
  rw [write_self] at this
  exact this

/-- What is written by a list of events, in order, are these values. -/
def Writes (t : Ty) : List Ev → List Val → Prop
  | [], vs => vs = []
  | .write src :: l, v :: vs => Rep t v src ∧ Writes t l vs
  | .write _ :: _, [] => False
  | .drop :: l, vs => Writes t l vs

/-- The condition of `C96_ok_iff`. -/
def Safe (t : Ty) : Prop :=
  Apart (provider (singleTy t).lay vecTy.lay).det (okOffset (singleTy t).lay vecTy.lay) t.lay.size ∨
    ∀ m : Mem, ¬ (singleTy t).lay.fv.Forbids (okPtr (singleTy t).lay vecTy.lay m) → isOk (singleTy t).lay vecTy.lay m = true

theorem ev_write {t : Ty} (h : t.WF) (hs : t.lay.size % t.lay.align = 0) (m src : Mem) :
    ev t m (.write src) = okForget (singleTy t).lay vecTy.lay m src := by
  unfold ev okForget
  rw [single_size h hs]

/-- Whatever is written through the references of a mutable iterator, before and after the iterator is dropped, and if it is forgotten: the container
has the single value that was written last.  This holds exactly if `is_ok` of the container reads no byte of the element, or answers as it does because
the element is none of its forbidden values. -/
theorem C99_single_iff (t : Ty) (h : (sovTy t).WF) (hs : t.lay.size % t.lay.align = 0) (v0 : Val) (hv : HasTy t v0) :
    (∀ old m l vs, Holds t old m → Writes t l vs → Holds t (vs.getLastD old) (evs t m l)) ↔ Safe t := by
  have ht : t.WF := h.1.1
  have hv' : HasTy (singleTy t) (.pair v0 (.raw [])) := ⟨hv, rfl, fun h => h⟩
  have iff := C96_ok_iff (singleTy t) vecTy h _ hv'
  rw [single_size ht hs] at iff
  constructor
  · intro ha
    refine iff.1 fun old new m src hm hw => ?_
    cases old with
    | pair o u =>
      cases new with
      | pair n w =>
        obtain ⟨hu, _⟩ : u = .raw [] ∧ True := by
          have := hm.2.2
          cases u with
          | raw bs => obtain ⟨hl, _⟩ := this; exact ⟨by rw [List.length_eq_zero_iff.1 hl], trivial⟩
          | _ => exact this.elim
        obtain ⟨hu', _⟩ : w = .raw [] ∧ True := by
          have := hw.2
          cases w with
          | raw bs => obtain ⟨hl, _⟩ := this; exact ⟨by rw [List.length_eq_zero_iff.1 hl], trivial⟩
          | _ => exact this.elim
        subst hu hu'
        have := ha o m [.write src] [n] hm ⟨single_rep.1 hw, rfl⟩
        unfold evs at this
        simp only [List.foldl_cons, List.foldl_nil, ev_write ht hs] at this
        exact this
      | _ => exact hw.elim
    | _ => exact hm.2.elim
  · intro hq old m l vs hm hw
    have keep := iff.2 hq
    induction l generalizing old m vs with
    | nil => cases (show vs = [] from hw); exact hm
    | cons e l ih =>
      cases e with
      | drop => exact ih old (ev t m .drop) vs (drop_holds h hm) hw
      | write src =>
        cases vs with
        | nil => exact hw.elim
        | cons v vs =>
          have := keep _ (.pair v (.raw [])) m src hm (single_rep.2 hw.1)
          rw [← ev_write ht hs] at this
          rw [List.getLastD_cons]
          exact ih v (ev t m (.write src)) vs this hw.2

/-- For every element type: if the guard is dropped after the last write, as borrows force it to be with `as_slice_mut`, the container has the single
value that was written last. -/
theorem C99_guard_partial (t : Ty) (h : (sovTy t).WF) (hs : t.lay.size % t.lay.align = 0) (old : Val) (m : Mem) (srcs : List Mem) (vs : List Val)
    (hm : Holds t old m) (hw : Writes t (srcs.map Ev.write) vs) : Holds t (vs.getLastD old) (evs t m (srcs.map Ev.write ++ [.drop])) := by
  have ht : t.WF := h.1.1
  unfold evs
  rw [List.foldl_append]
  rcases List.eq_nil_or_concat srcs with rfl | ⟨l, src, rfl⟩
  · cases (show vs = [] from hw); exact drop_holds h hm
  · have split : ∀ (l : List Mem) (vs : List Val), Writes t ((l ++ [src]).map Ev.write) vs → ∃ us v, vs = us ++ [v] ∧ Rep t v src := by
      intro l
      induction l with
      | nil =>
        intro vs hw
        cases vs with
        | nil => exact hw.elim
        | cons v vs => obtain ⟨h1, h2⟩ := hw; cases (show vs = [] from h2); exact ⟨[], v, rfl, h1⟩
      | cons a l ih =>
        intro vs hw
        cases vs with
        | nil => exact hw.elim
        | cons v vs => obtain ⟨us, w, rfl, h2⟩ := ih vs hw.2; exact ⟨v :: us, w, rfl, h2⟩
    rw [List.concat_eq_append] at hw ⊢
    obtain ⟨us, v, rfl, hr⟩ := split l vs hw
    rw [List.map_append, List.foldl_append]
    have hl : (us ++ [v]).getLastD old = v := by simp [List.getLastD_eq_getLast?]
    rw [hl]
    have over : ∀ (l : List Mem) (m : Mem), ev t (List.foldl (ev t) m (l.map Ev.write)) (.write src) = ev t m (.write src) := by
      intro l
      induction l with
      | nil => intro m; rfl
      | cons a l ih =>
        intro m
        rw [List.map_cons, List.foldl_cons, ih]
        funext i
        simp only [ev, Mem.write]
        split <;> rfl
    simp only [List.map_cons, List.map_nil, List.foldl_cons, List.foldl_nil]
    rw [over, ev_write ht hs]
    exact Props.Sum.C10_ok_guard_partial (singleTy t) vecTy h m src _ (.pair v (.raw [])) hm (single_rep.2 hr)

/-! ### Refutation -/

/-- `(u8, (u64, u64, u64))`. -/
def quad : Ty := .tuple2 .u8 (.tuple3 .u64 .u64 .u64)

/-- The tuple with these bytes. -/
def quadVal (m : Mem) : Val :=
  .pair (.raw [m 0]) (.pair (.pair (.raw ((List.range 8).map fun i => m (8 + i))) (.raw ((List.range 8).map fun i => m (16 + i))))
    (.raw ((List.range 8).map fun i => m (24 + i))))

theorem quad_rep (m : Mem) : Rep quad (quadVal m) m := by
  have e1 : alignUp Ty.u8.lay.size (Ty.tuple3 .u64 .u64 .u64).lay.align = 8 := by decide +kernel
  have e2 : alignUp Ty.u64.lay.size Ty.u64.lay.align = 8 := by decide +kernel
  have e3 : alignUp (Ty.fieldPair .u64 .u64).lay.size Ty.u64.lay.align = 16 := by decide +kernel
  refine ⟨⟨rfl, fun i hi => ?_, fun h => h⟩, ⟨⟨by simp, fun i hi => ?_, fun h => h⟩, ⟨by simp, fun i hi => ?_, fun h => h⟩⟩,
    ⟨by simp, fun i hi => ?_, fun h => h⟩⟩
  · have hi : i < 1 := hi
    match i, hi with
    | 0, _ => rfl
  · rw [e1]; simp [Mem.at]
  · rw [e1, e2]; simp [Mem.at, ← Nat.add_assoc]
  · rw [e1, e3]; simp [Mem.at, ← Nat.add_assoc]

/-- Refuted: a `SingleOrVec<(u8, (u64, u64, u64))>` with one element.  Someone takes the reference to it from a mutable iterator, lets the iterator go,
and writes a tuple through the reference.  If the first byte of its padding is 1, the container is a vector from then on, whose pointers are the three
numbers of the tuple. -/
theorem C99_late_refuted (nums : Nat → Byte) : ∃ old new m src, Holds quad old m ∧ Rep quad new src ∧ (∀ i, i < 24 → src (8 + i) = nums i) ∧
    isOk (singleTy quad).lay vecTy.lay (evs quad m [.drop, .write src]) = false ∧
    ∀ i, i < 24 → errPtr (singleTy quad).lay vecTy.lay (evs quad m [.drop, .write src]) i = nums i := by
  have e1 : (provider (singleTy quad).lay vecTy.lay).det = .bitIsErr 1 1 := by decide +kernel
  have e2 : okOffset (singleTy quad).lay vecTy.lay = 0 := by decide +kernel
  have e3 : errOffset (singleTy quad).lay vecTy.lay = 8 := by decide +kernel
  have e4 : quad.lay.size = 32 := by decide +kernel
  refine ⟨quadVal fun _ => 0, _, fun _ => 0, fun i => if i = 1 then 1 else if 8 ≤ i then nums (i - 8) else 0, ⟨by decide +kernel, single_rep.2 ?_⟩,
    quad_rep _, ?_, ?_, ?_⟩
  · exact quad_rep _
  · intro i hi
    dsimp only
    rw [if_neg (by omega), if_pos (by omega)]; congr 1; omega
  · unfold isOk
    rw [e1]
    simp [Det.isOk, evs, ev, e2, e4, Mem.write]
  · intro i hi
    unfold errPtr
    rw [e3]
    simp only [evs, ev, List.foldl_cons, List.foldl_nil, Mem.at, Mem.write, e2, e4]
    rw [if_pos (by omega), if_neg (by omega), if_pos (by omega)]; congr 1; omega

theorem quad_wf : (sovTy quad).WF := by
  have h8 : ∀ s, (Ty.prim s 8 .none .b0 false).WF := fun s => prim_wf ⟨3, rfl⟩
  exact ⟨single_wf (t := quad) ⟨prim_wf ⟨0, rfl⟩, ⟨h8 8, h8 8⟩, h8 8⟩, vec_wf, by decide +kernel⟩
theorem quad_hasTy : HasTy quad (quadVal fun _ => 0) := by
  have h1 : HasTy .u8 (.raw [0]) := ⟨rfl, fun h => h⟩
  have h2 : HasTy .u64 (.raw ((List.range 8).map fun _ => 0)) := ⟨rfl, fun h => h⟩
  exact ⟨h1, ⟨h2, h2⟩, h2⟩
example : ¬ Safe quad := by
  intro h
  have hs : quad.lay.size % quad.lay.align = 0 := by decide +kernel
  obtain ⟨old, new, m, src, h1, h2, _, h4, _⟩ := C99_late_refuted (fun _ => 0)
  have := (C99_single_iff quad quad_wf hs _ quad_hasTy).2 h old m [.drop, .write src] [new] h1 ⟨h2, rfl⟩
  rw [this.1] at h4; cases h4

/-- Numbers, references, and tuples without padding can be written at any time. -/
example : Safe .u64 ∧ Safe .ref ∧ Safe (.tuple3 .u64 .u64 .u64) := by
  refine ⟨.inl ?_, .inl ?_, .inl ?_⟩ <;> unfold Apart <;> decide +kernel
example : (sovTy .u64).WF ∧ HasTy .u64 (.raw [1, 0, 0, 0, 0, 0, 0, 0]) ∧ Ty.u64.lay.size % Ty.u64.lay.align = 0 :=
  ⟨⟨single_wf (prim_wf ⟨3, rfl⟩), vec_wf, by decide +kernel⟩, ⟨rfl, fun h => h⟩, rfl⟩

/-! ### Vectors -/

/-- Borrowing the elements of a container in the state of a vector leaves it as it is. -/
theorem C99_vec_borrow (t : Ty) (h : (sovTy t).WF) (v : Val) (m : Mem) (hm : Rep (sovTy t) (.err v) m) :
    Rep (sovTy t) (.err v) (dropErrGuard (singleTy t).lay vecTy.lay m) := by
  have := Props.Sum.C10_err_guard_partial (singleTy t) vecTy h m (errPtr (singleTy t).lay vecTy.lay m) _ _ hm hm.2
  unfold errGuardWrite errPtr at this
  rw [write_self] at this
  exact this

/-- Writing to an element, in both states: the container has that element in place of the old one, which is dropped, and nothing else changes. -/
theorem C99_set (e : SEnv) (o : Sov α) (l : List α) (h : SInv e o l) (i : Nat) (hi : i < l.length) (x : α) :
    ∃ o', o.set i x = some o' ∧ SInv e o' (l.set i x) ∧ o'.s.dropped = o.s.dropped ++ [l[i]] ∧ o'.s.tries = o.s.tries := by
  obtain ⟨cur, s⟩ := o
  cases cur with
  | some y =>
    obtain ⟨rfl, hb⟩ := h
    have : i = 0 := by simpa using hi
    subst this
    exact ⟨_, rfl, ⟨rfl, hb⟩, rfl, rfl⟩
  | none =>
    obtain ⟨hv, hb⟩ := h
    obtain ⟨rest, hd⟩ := hv.data
    dsimp only at hd
    have hr := read_spec s.v l rest hd i hi
    have hc : i < s.v.cells.length := by rw [hd]; simp; omega
    obtain ⟨v', h1, h3, h2⟩ := write_spec s.v i x hc
    refine ⟨⟨none, { s with v := v', dropped := s.dropped ++ [l[i]] }⟩, by simp [Sov.set, hr, h1], ⟨?_, ?_⟩, rfl, rfl⟩
    · exact hv.of_frame h3 (by rw [h3.len, hv.len]; simp) ⟨rest, by rw [h2, hd, List.set_append_left _ _ (by simpa using hi), List.map_set]⟩
    · unfold Bal at *; dsimp only; rw [live_frame h3]; exact hb
example : SInv ⟨⟨8, fun _ _ => true⟩, true⟩ (⟨some 1, St.new⟩ : Sov Nat) [1] ∧
    ((⟨some 1, St.new⟩ : Sov Nat).set 0 5).map (·.slice) = some (some [5]) := ⟨⟨rfl, rfl⟩, rfl⟩

/-! ### Capacity -/

/-- The capacity is never below the length, what remains is the difference, and the container is empty exactly if its length is zero. -/
theorem C20_capacity (e : SEnv) (o : Sov α) (l : List α) (h : SInv e o l) :
    l.length ≤ o.capacity ∧ o.remaining = o.capacity - l.length ∧ o.isEmpty = l.isEmpty := by
  obtain ⟨cur, s⟩ := o
  cases cur with
  | some y => obtain ⟨rfl, _⟩ := h; exact ⟨Nat.le_refl _, rfl, rfl⟩
  | none =>
    obtain ⟨hv, _⟩ := h
    have hl : s.v.len = l.length := hv.len
    refine ⟨hv.le, ?_, ?_⟩
    · show s.v.cap - s.v.len = s.v.cap - l.length
      rw [hl]
    · show decide (s.v.len = 0) = _
      rw [hl]; cases l <;> simp

theorem tryPush_room {e : SEnv} (s : St α) (l : List α) (h : VInv e.toEnv s.v l) (hb : Bal s) (hr : 1 ≤ s.v.cap - l.length) (x : α) :
    ∃ v', Sov.push e ⟨none, s⟩ x = some (.unit, ⟨none, { s with v := v' }⟩) ∧ VInv e.toEnv v' (l ++ [x]) ∧ Bal { s with v := v' } ∧ v'.cap = s.v.cap := by
  obtain ⟨v', h1, h2, h3, h4⟩ := push_room s l h hb hr x
  refine ⟨v', ?_, h2, h3, h4⟩
  have hle := h.le
  have hne : ¬ s.v.len = s.v.cap := by rw [h.len]; omega
  unfold Vec.push at h1
  rw [if_neg hne] at h1
  unfold Sov.push Sov.tryPush
  dsimp only
  rw [if_neg (by omega)]
  unfold Vec.tryPush
  rw [if_neg hne]
  cases hp : pushRaw s x with
  | none => rw [hp] at h1; simp at h1
  | some s' => rw [hp] at h1; simp at h1; simp [h1]

theorem pushAll_room {e : SEnv} (xs : List α) (s : St α) (l : List α) (h : VInv e.toEnv s.v l) (hb : Bal s) (hr : xs.length ≤ s.v.cap - l.length) :
    ∃ v', Sov.pushAll e ⟨none, s⟩ xs = some (.unit, ⟨none, { s with v := v' }⟩) ∧ VInv e.toEnv v' (l ++ xs) ∧ v'.cap = s.v.cap := by
  induction xs generalizing s l with
  | nil => exact ⟨s.v, rfl, by simpa using h, rfl⟩
  | cons x xs ih =>
    simp only [List.length_cons] at hr
    obtain ⟨v1, h1, h2, h3, h4⟩ := tryPush_room s l h hb (by omega) x
    obtain ⟨v2, q1, q2, q3⟩ := ih { s with v := v1 } (l ++ [x]) h2 h3 (by dsimp only; rw [h4]; simp; omega)
    refine ⟨v2, ?_, by simpa using q2, q3.trans h4⟩
    simp only [Sov.pushAll, h1]
    exact q1

/-- For element types on which the guard does not scribble: after a successful reservation for `n` more elements, that many can be pushed without a
call to the allocator, and they are there. -/
theorem C20_reserve_partial (e : SEnv) (he : Sane e.toEnv) (hs : e.scr = false) (o o' : Sov α) (l : List α) (h : SInv e o l) (n : Nat)
    (hn : e.esz * (1 + n) < 9223372036854775808) (hr : o.tryReserve e n = some (true, o')) (xs : List α) (hx : xs.length ≤ n) :
    ∃ o'', o'.pushAll e xs = some (.unit, o'') ∧ o''.slice = some (l ++ xs) ∧ o''.s.tries = o'.s.tries ∧ o''.capacity = o'.capacity := by
  have hg : ∀ y, o.cur = some y → (Vec.tryReserve e.toEnv o.fresh ((1 + n) % W)).1 = true := by
    intro y hy
    unfold Sov.tryReserve at hr
    rw [hy] at hr
    dsimp only at hr
    cases hc : (Vec.tryReserve e.toEnv o.fresh ((1 + n) % W)).1 with
    | true => rfl
    | false =>
      generalize Vec.tryReserve e.toEnv o.fresh ((1 + n) % W) = g at *
      obtain ⟨b, s⟩ := g
      dsimp only at hc
      subst hc
      simp at hr
  obtain ⟨b, o1, h1, h2, h3, h4⟩ := sov_tryReserve he hs o l h n hn hg
  rw [hr] at h1
  cases h1
  obtain ⟨_, hrf, hroom, hnone⟩ : true = true ∧ _ := by
    rcases h4 with h4 | h4
    · exact h4
    · cases h4.1
  obtain ⟨cur, s⟩ := o'
  cases (show cur = none from hnone)
  obtain ⟨hv, hb⟩ := h2
  obtain ⟨v', q1, q2, q3⟩ := pushAll_room xs s l hv hb (by dsimp only at hroom; omega)
  refine ⟨_, q1, ?_, rfl, q3⟩
  obtain ⟨rest, hd⟩ := q2.data
  show Vec.slice v' 0 v'.len = _
  rw [q2.len, slice_spec v' _ rest hd _ _ (by omega), List.drop_zero, List.take_length]

/-- Both constructors with a capacity give an empty container with room for as many elements; otherwise the allocator refused. -/
theorem C20_constructors (e : SEnv) (he : Sane e.toEnv) (n : Nat) (hn : e.esz * n < 9223372036854775808) :
    ∃ r o, Sov.withCapacity e n = some (r, (o : Sov α)) ∧
      (r = .unit ∧ o.slice = some [] ∧ n ≤ o.capacity ∧ (Sov.tryWithCapacity e n = some o) ∨
        r = .panic ∧ o.s.refused = 1 ∧ o.s.allocs = 0 ∧ (Sov.tryWithCapacity e n : Option (Sov α)) = none) := by
  unfold Sov.withCapacity sstep Sov.tryReserve Sov.tryWithCapacity Sov.new
  dsimp only
  rcases tryReserve_spec he (St.new : St α) [] (VInv.new _) rfl n hn with ⟨h1, r1⟩ | ⟨h1, h2⟩
  · generalize Vec.tryReserve e.toEnv (St.new : St α) n = g at *
    obtain ⟨b, s⟩ := g
    dsimp only at h1 r1
    subst h1
    refine ⟨.unit, ⟨none, s⟩, rfl, .inl ⟨rfl, ?_, ?_, rfl⟩⟩
    · have := r1.inv.len
      show Vec.slice s.v 0 s.v.len = _
      rw [this]; rfl
    · have := r1.room; exact this
  · generalize Vec.tryReserve e.toEnv (St.new : St α) n = g at *
    obtain ⟨b, s⟩ := g
    dsimp only at h1 h2
    subst h1 h2
    exact ⟨.panic, _, rfl, .inr ⟨rfl, rfl, rfl, rfl⟩⟩

/-! ### Clones and conversions -/

/-- The clone of a container, in either state, has the clones of its elements; or the allocator refused. -/
theorem C20_clone (e : SEnv) (he : Sane e.toEnv) (c : α → α) (o : Sov α) (l : List α) (h : SInv e o l) :
    ∃ r o', o.clone e.toEnv c = some (r, o') ∧
      (r = .unit ∧ o'.s.refused = 0 ∧ o'.slice = some (l.map c) ∨ r = .panic ∧ o'.s.refused = 1) := by
  obtain ⟨cur, s⟩ := o
  cases cur with
  | some y => obtain ⟨rfl, _⟩ := h; exact ⟨_, _, rfl, .inl ⟨rfl, rfl, rfl⟩⟩
  | none =>
    obtain ⟨hv, _⟩ := h
    dsimp only at hv
    obtain ⟨rest, hd⟩ := hv.data
    have hsl : slice s.v 0 s.v.len = some l := by
      rw [hv.len, slice_spec s.v l rest hd _ _ (by omega)]; simp
    have hbd : e.esz * s.v.len < 9223372036854775808 := by
      have := hv.bound
      have : e.esz * s.v.len ≤ e.esz * s.v.cap := Nat.mul_le_mul_left _ (by rw [hv.len]; exact hv.le)
      omega
    unfold Sov.clone cloneVec withCapacity reserve
    dsimp only
    rcases tryReserve_spec he (St.new : St α) [] (VInv.new _) rfl s.v.len hbd with ⟨h1, r1⟩ | ⟨h1, h2⟩
    · rw [show ({ (St.new : St α) with v := .new }) = St.new from rfl]
      generalize Vec.tryReserve e.toEnv (St.new : St α) s.v.len = g at *
      obtain ⟨b, s1⟩ := g
      dsimp only at h1 r1
      subst h1
      have hroom : s.v.len ≤ s1.v.cap := r1.room
      obtain ⟨v', w1, w2, _⟩ := writeTail s1.v [] (l.map c) r1.inv (by rw [List.length_map, ← hv.len]; exact hroom)
      have hlen0 : s1.v.len = 0 := r1.inv.len
      rw [hlen0] at w1
      refine ⟨.unit, ⟨none, setLen { s1 with v := v' } s.v.len⟩, ?_, .inl ⟨rfl, r1.refused, ?_⟩⟩
      · simp [hsl, w1]
      · obtain ⟨rest', hd'⟩ := w2.data
        have hd' : (setLen { s1 with v := v' } s.v.len).v.cells = (l.map c).map some ++ rest' := by
          simpa [Vec.cells, setLen] using hd'
        have := slice_spec (setLen { s1 with v := v' } s.v.len).v (l.map c) rest' hd' s.v.len 0 (by simp [hv.len])
        show Vec.slice (setLen { s1 with v := v' } s.v.len).v 0 s.v.len = _
        rw [this, List.drop_zero, List.take_of_length_le (by simp [hv.len])]
    · rw [show ({ (St.new : St α) with v := .new }) = St.new from rfl]
      generalize Vec.tryReserve e.toEnv (St.new : St α) s.v.len = g at *
      obtain ⟨b, s1⟩ := g
      dsimp only at h1 h2
      subst h1 h2
      exact ⟨.panic, _, rfl, .inr ⟨rfl, rfl⟩⟩

/-- A vector with any history becomes a container of its elements, without a call to the allocator, and gives the same vector back. -/
theorem C20_of_vec (e : SEnv) (he : Sane e.toEnv) (ops : List (Op α)) (ha : ∀ op ∈ ops, Args e.toEnv op) (rs : List (Res α)) (s : St α)
    (hs : run e.toEnv St.new ops = some (rs, s)) : ∃ l, asSlice s = some (.refs l, s) ∧ SInv e (Sov.ofVec s) l ∧ (Sov.ofVec s).slice = some l ∧
      (Sov.ofVec s).intoVec e = some (.unit, s) := by
  obtain ⟨rs', s', l, h1, h2, hb, _, _⟩ := Props.Vec.run_good he ops ha St.new [] (VInv.new _) rfl
  rw [hs] at h1; cases h1
  have hi : SInv e (Sov.ofVec s) l := ⟨h2, hb⟩
  have hsl := (sov_slice _ l hi).1
  refine ⟨l, ?_, hi, hsl, rfl⟩
  have : slice s.v 0 s.v.len = some l := hsl
  simp [asSlice, this]

/-- `SingleOrVec<Tuple3<u64, u64, u64>>`: reserving while it holds one element, then pushing; and a clone. -/
example : Sane (envOf (.tuple3 .u64 .u64 .u64) (fun _ b => decide (b < 9223372036854775808))).toEnv ∧
    SInv (envOf (.tuple3 .u64 .u64 .u64) (fun _ b => decide (b < 9223372036854775808))) (⟨some 1, St.new⟩ : Sov Nat) [1] ∧
    ((⟨some 1, St.new⟩ : Sov Nat).tryReserve (envOf (.tuple3 .u64 .u64 .u64) (fun _ b => decide (b < 9223372036854775808))) 2).map (·.1) = some true ∧
    ((⟨some 1, St.new⟩ : Sov Nat).clone Props.Vec.u64Env (· + 1)).map (fun p => p.2.slice) = some (some [2]) := by
  refine ⟨⟨by decide +kernel, fun i b h => by simpa [envOf] using h⟩, ⟨rfl, rfl⟩, by decide +kernel, rfl⟩

end Verif.Props.SovMut
