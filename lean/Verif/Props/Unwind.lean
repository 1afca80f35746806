import Verif.Vec.UnwindLemmas

/-! Property C62. -/
namespace Verif.Props.Unwind
open Verif.Vec
variable {α : Type}

/-- What an operation may report (`x`) and leave (`l'`) on the sequence `l`, and what it may leak; nothing is said of a process that is gone. -/
def USpec (w : User α) (op : UOp α) (l : List α) (x : Exit α) (l' leak : List α) : Prop :=
  let plain (op : Op α) := leak = [] ∧ ∃ refused r, Spec op refused l r l' ∧ x = Exit.of r
  match op with
  | .tryPush y => plain (.tryPush y)
  | .pop => plain .pop
  | .remove i => plain (.remove i)
  | .swap i j => plain (.swap i j)
  | .swapRemove i => plain (.swapRemove i)
  | .reserve n => plain (.reserve n)
  | .index i => plain (.index i)
  | .asSlice => plain .asSlice
  | .push y => leak = [] ∧ (x = .done .unit ∧ l' = l ++ [y] ∨ x = .unwound [] ∧ l' = l)
  | .extend ys _ _ boom => leak = [] ∧ ∃ k, k ≤ ys.length ∧ l' = l ++ ys.take k ∧
      (x = .done .unit ∧ boom = false ∧ k = ys.length ∨ x = .unwound [])
  | .truncate n => leak = [] ∧ x = .done .unit ∧ l' = l.take n
  | .intoIter k => leak = [] ∧ x = .done (.yielded (l.take k)) ∧ l' = []
  | .drain f t k stop =>
    if f ≤ t ∧ t ≤ l.length then
      -- the range ends at `t`, or where the iterator was stopped
      let t' := if stop then min (f + k) t else t
      (x = .done (.yielded (((l.take t).drop f).take k)) ∧ l' = l.take f ++ l.drop t' ∧ leak = []) ∨
      (x = .unwound (((l.take t).drop f).take k) ∧ (∃ y ∈ (l.take t).drop (f + k), w.bad y = true) ∧ l' = l.take f ∧ leak = l.drop t')
    else x = .unwound [] ∧ l' = l ∧ leak = []
  | .clone => l' = l ∧ (x = .done .unit ∧ leak = [] ∨ x = .unwound [] ∧ (leak = [] ∨ (∃ y ∈ l, w.cl y = none) ∧ leak = (clones w.cl l).1))
  | .drop => l' = [] ∧ leak = [] ∧ (x = .done .unit ∧ (∀ y ∈ l, w.bad y = false) ∨ x = .unwound [] ∧ ∃ y ∈ l, w.bad y = true)

/-- Requests stay below half of the address space, and iterators respect their upper bounds. -/
def UArgs (e : Env) : UOp α → Prop
  | .reserve n => Args e (.reserve n : Op α)
  | .extend l lo hi _ => Args e (.extend l lo hi)
  | _ => True

/-- `truncate` and `into_iter` meet no unwinding destructor. -/
def Tame (w : User α) (l : List α) : UOp α → Prop
  | .truncate n => ∀ x ∈ l.drop n, w.bad x = false
  | .intoIter k => ∀ x ∈ l.drop k, w.bad x = false
  | _ => True

/-- The same, along a run. -/
def TameRun (w : User α) (e : Env) : USt α → List (UOp α) → Prop
  | _, [] => True
  | u, op :: ops => (∀ l, slice u.s.v 0 u.s.v.len = some l → Tame w l op) ∧ ∀ x u', ustep w e u op = some (x, u') → TameRun w e u' ops

theorem clones_none (cl : α → Option α) (l : List α) (h : (clones cl l).2 = false) : ∃ y ∈ l, cl y = none := by
  induction l with
  | nil => simp [clones] at h
  | cons x xs ih =>
    simp only [clones] at h
    cases hx : cl x with
    | none => exact ⟨x, by simp, hx⟩
    | some y =>
      simp only [hx] at h
      obtain ⟨y, h1, h2⟩ := ih h
      exact ⟨y, by simp [h1], h2⟩

theorem view {e : Env} {v : Vec α} {l : List α} (h : VInv e v l) : slice v 0 v.len = some l := by
  obtain ⟨rest, hd⟩ := h.data
  rw [h.len, slice_spec v l rest hd _ _ (by omega)]; simp

theorem ustep_good {e : Env} (he : Sane e) (w : User α) (u : USt α) (l : List α) (h : VInv e u.s.v l) (hb : Bal u.s) (op : UOp α)
    (ha : UArgs e op) (ht : Tame w l op) :
    ∃ x u' made, ustep w e u op = some (x, u') ∧
      ((x = .aborted ∧ ∃ leak, UGone w u l op u' made leak) ∨
       (x ≠ .aborted ∧ ∃ l' leak, USpec w op l x l' leak ∧ UGood e w u l op x u' l' made leak)) := by
  have exof : ∀ r : Res α, Exit.of r ≠ .aborted := by intro r; cases r <;> simp [Exit.of]
  have hout : ∀ (op : Op α), (∀ l, op ≠ .copyExtend l) → ∀ r, (Exit.of r).outs = outs op r := by
    intro op hop r
    cases r with
    | moved x => cases x <;> cases op <;> rfl
    | allocErr => cases op <;> first | rfl | exact absurd rfl (hop _)
    | _ => cases op <;> rfl
  cases op with
  | tryPush y =>
    obtain ⟨r, s', l', h1, h2, h3⟩ := plainU_good w u l (.tryPush y) (.tryPush y) _ rfl (hout _ (by simp)) (tryPush_step he u.s l h hb y)
    exact ⟨_, _, [], h1, .inr ⟨exof r, l', [], ⟨rfl, _, r, h2, rfl⟩, h3⟩⟩
  | pop =>
    obtain ⟨r, s', l', h1, h2, h3⟩ := plainU_good w u l .pop .pop _ rfl (hout _ (by simp)) (pop_step u.s l h hb)
    exact ⟨_, _, [], h1, .inr ⟨exof r, l', [], ⟨rfl, _, r, h2, rfl⟩, h3⟩⟩
  | remove i =>
    obtain ⟨r, s', l', h1, h2, h3⟩ := plainU_good w u l (.remove i) (.remove i) _ rfl (hout _ (by simp)) (remove_step u.s l h hb i)
    exact ⟨_, _, [], h1, .inr ⟨exof r, l', [], ⟨rfl, _, r, h2, rfl⟩, h3⟩⟩
  | swap i j =>
    obtain ⟨r, s', l', h1, h2, h3⟩ := plainU_good w u l (.swap i j) (.swap i j) _ rfl (hout _ (by simp)) (swap_step u.s l h hb i j)
    exact ⟨_, _, [], h1, .inr ⟨exof r, l', [], ⟨rfl, _, r, h2, rfl⟩, h3⟩⟩
  | swapRemove i =>
    obtain ⟨r, s', l', h1, h2, h3⟩ := plainU_good w u l (.swapRemove i) (.swapRemove i) _ rfl (hout _ (by simp)) (swapRemove_step u.s l h hb i)
    exact ⟨_, _, [], h1, .inr ⟨exof r, l', [], ⟨rfl, _, r, h2, rfl⟩, h3⟩⟩
  | reserve n =>
    obtain ⟨r0, s0, l0, g1, g2, _⟩ := reserve_step he u.s l h hb n ha
    obtain ⟨r, s', l', h1, h2, h3⟩ := plainU_good w u l (.reserve n) (.reserve n) _ rfl (hout _ (by simp)) ⟨r0, s0, l0, g1, g2⟩
    exact ⟨_, _, [], h1, .inr ⟨exof r, l', [], ⟨rfl, _, r, h2, rfl⟩, h3⟩⟩
  | index i =>
    obtain ⟨r, s', l', h1, h2, h3⟩ := plainU_good w u l (.index i) (.index i) _ rfl (hout _ (by simp)) (index_step u.s l h hb i)
    exact ⟨_, _, [], h1, .inr ⟨exof r, l', [], ⟨rfl, _, r, h2, rfl⟩, h3⟩⟩
  | asSlice =>
    obtain ⟨r, s', l', h1, h2, h3⟩ := plainU_good w u l .asSlice .asSlice _ rfl (hout _ (by simp)) (asSlice_step u.s l h hb)
    exact ⟨_, _, [], h1, .inr ⟨exof r, l', [], ⟨rfl, _, r, h2, rfl⟩, h3⟩⟩
  | push y =>
    obtain ⟨r, u', h1, h2⟩ := pushU_good he w u l h hb y
    refine ⟨r, u', [], h1, ?_⟩
    rcases h2 with h2 | ⟨rfl, h3⟩ | ⟨rfl, _, h3⟩
    · exact .inl h2
    · exact .inr ⟨by simp, _, _, ⟨rfl, .inl ⟨rfl, rfl⟩⟩, h3⟩
    · exact .inr ⟨by simp, _, _, ⟨rfl, .inr ⟨rfl, rfl⟩⟩, h3⟩
  | extend ys lo hi boom =>
    obtain ⟨r, u', h1, h2⟩ := extendU_good he w u l h hb ys lo hi boom ha
    refine ⟨r, u', [], h1, ?_⟩
    rcases h2 with h2 | ⟨k, h3, h4, ⟨rfl, h5, h6⟩ | ⟨rfl, h5⟩⟩
    · exact .inl h2
    · exact .inr ⟨by simp, _, _, ⟨rfl, k, h3, rfl, .inl ⟨rfl, h5, h6⟩⟩, h4⟩
    · exact .inr ⟨by simp, _, _, ⟨rfl, k, h3, rfl, .inr rfl⟩, h4⟩
  | truncate n =>
    obtain ⟨u', h1, h2⟩ := truncateU_good w u l h hb n ht
    exact ⟨_, u', [], h1, .inr ⟨by simp, _, _, ⟨rfl, rfl, rfl⟩, h2⟩⟩
  | intoIter k =>
    obtain ⟨u', h1, h2⟩ := intoIterU_good w u l h hb k ht
    exact ⟨_, u', [], h1, .inr ⟨by simp, _, _, ⟨rfl, rfl, rfl⟩, h2⟩⟩
  | drain f t k stop =>
    obtain ⟨r, u', h1, h2⟩ := drainU_good w u l h hb f t k stop
    refine ⟨r, u', [], h1, ?_⟩
    rcases h2 with h2 | ⟨hv, rfl, h3⟩ | ⟨hv, rfl, h3⟩ | ⟨hv, rfl, h4, h3⟩
    · exact .inl h2
    · refine .inr ⟨by simp, _, _, ?_, h3⟩
      dsimp only [USpec]; rw [if_neg hv]; exact ⟨rfl, rfl, rfl⟩
    · refine .inr ⟨by simp, _, _, ?_, h3⟩
      dsimp only [USpec]; rw [if_pos hv]; exact .inl ⟨rfl, rfl, rfl⟩
    · refine .inr ⟨by simp, _, _, ?_, h3⟩
      dsimp only [USpec]; rw [if_pos hv]; exact .inr ⟨rfl, h4, rfl, rfl⟩
  | clone =>
    obtain ⟨r, u', made, h1, h0, h2⟩ := cloneU_good he w u l h hb
    refine ⟨r, u', made, h1, ?_⟩
    rcases h2 with h2 | ⟨rfl, _, h3⟩ | ⟨rfl, leak, h4, h3⟩
    · exact .inl h2
    · exact .inr ⟨by simp, _, _, ⟨rfl, .inl ⟨rfl, rfl⟩⟩, h3⟩
    · refine .inr ⟨by simp, _, _, ⟨rfl, .inr ⟨rfl, ?_⟩⟩, h3⟩
      rcases h4 with h4 | ⟨h4, h5⟩
      · exact .inl h4
      · rcases h0 with h0 | h0
        · exact .inl (h5.trans h0)
        · exact .inr ⟨clones_none w.cl l h4, h5.trans h0⟩
  | drop =>
    obtain ⟨r, u', h1, h2⟩ := dropU_good w u l h hb
    refine ⟨r, u', [], h1, ?_⟩
    rcases h2 with h2 | ⟨h3, rfl, _, h4⟩ | ⟨h3, rfl, _, h4⟩
    · exact .inl h2
    · exact .inr ⟨by simp, _, _, ⟨rfl, rfl, .inl ⟨rfl, h3⟩⟩, h4⟩
    · exact .inr ⟨by simp, _, _, ⟨rfl, rfl, .inr ⟨rfl, h3⟩⟩, h4⟩

/-- A history allowed by the specification; `leak` are the elements lost over it. -/
def USpecRun (w : User α) : List (UOp α) → List α → List (Exit α) → List α → List α → Prop
  | [], l, [], l', leak => l' = l ∧ leak = []
  | op :: ops, l, x :: xs, l', leak => ∃ m k1 k2, USpec w op l x m k1 ∧ USpecRun w ops m xs l' k2 ∧ leak = k1 ++ k2
  | _, _, _, _, _ => False

theorem urun_good {e : Env} (he : Sane e) (w : User α) (ops : List (UOp α)) (ha : ∀ op ∈ ops, UArgs e op) (u : USt α) (l : List α)
    (h : VInv e u.s.v l) (hb : Bal u.s) (ht : TameRun w e u ops) :
    ∃ xs u' made, urun w e u ops = some (xs, u') ∧ (∀ y ∈ made, .clone ∈ ops ∧ ∃ z, w.cl z = some y) ∧
      (((∃ y, w.bad y = true) ∧ .aborted ∈ xs ∧ ∃ rest, (u'.s.dropped ++ xs.flatMap Exit.outs ++ rest).Perm
          (u.s.dropped ++ ((ops.take xs.length).flatMap UOp.ins ++ made) ++ l)) ∨
       (.aborted ∉ xs ∧ ∃ l' leak, VInv e u'.s.v l' ∧ Bal u'.s ∧ USpecRun w ops l xs l' leak ∧
        (u'.s.dropped ++ xs.flatMap Exit.outs ++ l' ++ leak).Perm (u.s.dropped ++ (ops.flatMap UOp.ins ++ made) ++ l) ∧
        ((∀ x ∈ xs, ∃ r, x = .done r) → leak = [] ∧ u'.lost = u.lost) ∧ u'.lost ≤ u.lost + xs.countP fun x => match x with | .unwound _ => true | _ => false)) := by
  classical
  induction ops generalizing u l with
  | nil =>
    exact ⟨[], u, [], rfl, by simp, .inr ⟨by simp, l, [], h, hb, ⟨rfl, rfl⟩, by simp, fun _ => ⟨rfl, rfl⟩, by simp⟩⟩
  | cons op ops ih =>
    obtain ⟨ht1, ht2⟩ := ht
    obtain ⟨x, u1, made1, h1, hcase⟩ := ustep_good he w u l h hb op (ha op (by simp)) (ht1 l (view h))
    rcases hcase with ⟨rfl, leak, g⟩ | ⟨hx, l1, leak1, sp, g⟩
    · refine ⟨[.aborted], u1, made1, by simp [urun, h1], fun y hy => ⟨by simp [(g.made y hy).1], (g.made y hy).2⟩, .inl ⟨g.bad, by simp, leak, ?_⟩⟩
      simpa [Exit.outs] using g.ledger
    · obtain ⟨xs, u2, made2, h2, hm, hcase⟩ := ih (fun o ho => ha o (by simp [ho])) u1 l1 g.inv g.bal (ht2 x u1 h1)
      have hrun : urun w e u (op :: ops) = some (x :: xs, u2) := by
        simp only [urun, h1, Option.bind_eq_bind, Option.bind_some]
        cases x with
        | aborted => exact absurd rfl hx
        | done r => simp [h2]
        | unwound o => simp [h2]
      refine ⟨x :: xs, u2, made1 ++ made2, hrun, ?_, ?_⟩
      · intro y hy
        rcases List.mem_append.1 hy with hy | hy
        · exact ⟨by simp [(g.made y hy).1], (g.made y hy).2⟩
        · exact ⟨by simp [(hm y hy).1], (hm y hy).2⟩
      · rcases hcase with ⟨hbad, hab, rest, p⟩ | ⟨hna, l2, leak2, i2, b2, sp2, p, hd, hl⟩
        · refine .inl ⟨hbad, by simp [hab], rest ++ leak1, ?_⟩
          have p1 := fun a => g.ledger.count_eq a
          have p2 := fun a => p.count_eq a
          rw [List.perm_iff_count]; intro a
          have p1 := p1 a
          have p2 := p2 a
          simp only [List.length_cons, List.take_succ_cons, List.flatMap_cons, List.count_append] at *
          omega
        · refine .inr ⟨by simp [hna, Ne.symm hx], l2, leak1 ++ leak2, i2, b2, ⟨l1, leak1, leak2, sp, sp2, rfl⟩, ?_, ?_, ?_⟩
          · have p1 := fun a => g.ledger.count_eq a
            have p2 := fun a => p.count_eq a
            rw [List.perm_iff_count]; intro a
            have p1 := p1 a
            have p2 := p2 a
            simp only [List.flatMap_cons, List.count_append] at *
            omega
          · intro hall
            obtain ⟨r, hr⟩ := hall x (by simp)
            obtain ⟨e1, e2⟩ := g.done r hr
            obtain ⟨e3, e4⟩ := hd (fun y hy => hall y (by simp [hy]))
            exact ⟨by simp [e1, e3], e4.trans e2⟩
          · have := g.lost
            cases x with
            | aborted => exact absurd rfl hx
            | done r =>
              have := (g.done r rfl).2
              simp only [List.countP_cons]; simp only [Bool.false_eq_true, if_false]; omega
            | unwound o => simp only [List.countP_cons]; simp only [if_true]; omega

/-- **C62 (partial).**  From an empty vector, in any history of operations whose destructors, clones and iterators may unwind (the
unwinding being caught between operations), provided that `truncate` and `into_iter` meet no unwinding destructor: there is no
undefined behaviour; every operation reports and leaves what the specification allows, also when it unwound; no element is dropped
twice, nor dropped after having been handed out; the elements that are lost are those after a drained range in which a destructor
unwound, or the copies made by a clone that unwound; if no operation unwound, none is lost.  Blocks are lost only by operations
that unwound.  If the process is aborted (a destructor unwinds during unwinding), nothing was dropped twice until then.
Missing: `truncate` and `into_iter` with unwinding destructors, which break this (see below). -/
theorem C62_history_partial {e : Env} (he : Sane e) (w : User α) (ops : List (UOp α)) (ha : ∀ op ∈ ops, UArgs e op)
    (ht : TameRun w e ⟨.new, 0⟩ ops) :
    ∃ xs u made, urun w e ⟨.new, 0⟩ ops = some (xs, u) ∧ (∀ y ∈ made, .clone ∈ ops ∧ ∃ z, w.cl z = some y) ∧
      (((∃ y, w.bad y = true) ∧ .aborted ∈ xs ∧
          ∃ rest, (u.s.dropped ++ xs.flatMap Exit.outs ++ rest).Perm ((ops.take xs.length).flatMap UOp.ins ++ made)) ∨
       (.aborted ∉ xs ∧ ∃ l leak, slice u.s.v 0 u.s.v.len = some l ∧ USpecRun w ops [] xs l leak ∧
          (u.s.dropped ++ xs.flatMap Exit.outs ++ l ++ leak).Perm (ops.flatMap UOp.ins ++ made) ∧
          ((∀ x ∈ xs, ∃ r, x = .done r) → leak = [] ∧ u.lost = 0) ∧
          u.s.allocs = u.s.frees + (if u.s.v.cap = 0 then 0 else 1) ∧
          u.lost ≤ xs.countP fun x => match x with | .unwound _ => true | _ => false)) := by
  obtain ⟨xs, u, made, h1, h2, h3⟩ := urun_good he w ops ha ⟨.new, 0⟩ [] (VInv.new e) rfl ht
  refine ⟨xs, u, made, h1, h2, ?_⟩
  rcases h3 with ⟨a, b, rest, c⟩ | ⟨a, l, leak, b, c, d, f, g, i⟩
  · exact .inl ⟨a, b, rest, by simpa [St.new] using c⟩
  · exact .inr ⟨a, l, leak, view b, d, by simpa [St.new] using f, g, c, by simpa using i⟩

/-- If no destructor unwinds, `truncate` and `into_iter` are covered too and the process is never aborted, even if clones and iterators
unwind. -/
theorem C62_good_destructors {e : Env} (he : Sane e) (w : User α) (hw : ∀ x, w.bad x = false) (ops : List (UOp α)) (ha : ∀ op ∈ ops, UArgs e op) :
    ∃ xs u made l leak, urun w e ⟨.new, 0⟩ ops = some (xs, u) ∧ .aborted ∉ xs ∧ slice u.s.v 0 u.s.v.len = some l ∧ USpecRun w ops [] xs l leak ∧
      (u.s.dropped ++ xs.flatMap Exit.outs ++ l ++ leak).Perm (ops.flatMap UOp.ins ++ made) ∧ (∀ y ∈ made, .clone ∈ ops ∧ ∃ z, w.cl z = some y) := by
  have tame : ∀ (ops : List (UOp α)) u, TameRun w e u ops := by
    intro ops
    induction ops with
    | nil => intro u; trivial
    | cons op ops ih =>
      intro u
      refine ⟨fun l _ => ?_, fun x u' _ => ih u'⟩
      cases op <;> simp [Tame, hw]
  obtain ⟨xs, u, made, h1, h2, h3⟩ := C62_history_partial he w ops ha (tame _ _)
  rcases h3 with ⟨⟨y, hy⟩, _⟩ | ⟨a, l, leak, b, c, d, _⟩
  · rw [hw y] at hy; cases hy
  · exact ⟨xs, u, made, l, leak, h1, a, b, c, d, h2⟩

/-- An allocator that grants everything up to a size; elements of eight bytes. -/
def env : Env := ⟨8, fun _ b => decide (b < 9223372036854775808)⟩
theorem env_sane : Sane env := ⟨by simp [env], by simp [env]⟩

/-- The destructor of `2` unwinds, and so does `clone` of `3`; the clone of another number is that number plus `100`. -/
def user : User Nat := ⟨fun x => x == 2, fun x => if x = 3 then none else some (x + 100)⟩

/-- A history in which every kind of user code unwinds. -/
def story : List (UOp Nat) :=
  [.extend [1, 2, 3, 4] 0 none true, .clone, .truncate 3, .drain 1 2 0 false, .asSlice, .push 5, .intoIter 1]

example : (urun user env ⟨.new, 0⟩ story).map (fun p => (p.1, p.2.s.dropped, p.2.lost)) =
    some ([.unwound [], .unwound [], .done .unit, .unwound [], .done (.refs [1]), .done .unit, .done (.yielded [1])], [4, 2, 5], 0) := by decide +kernel

example : TameRun user env ⟨.new, 0⟩ story ∧ ∀ op ∈ story, UArgs env op := by
  refine ⟨?_, by simp [story, UArgs, Args, env]⟩
  unfold story
  refine ⟨fun _ _ => trivial, fun x u h => ?_⟩
  obtain rfl := congrArg Prod.snd (Option.some.inj (h.symm.trans (by rfl : _ = some _)))
  refine ⟨fun _ _ => trivial, fun x u h => ?_⟩
  obtain rfl := congrArg Prod.snd (Option.some.inj (h.symm.trans (by rfl : _ = some _)))
  refine ⟨fun l hl => ?_, fun x u h => ?_⟩
  · obtain rfl := Option.some.inj (hl.symm.trans (by rfl : _ = some [1, 2, 3, 4])); simp [Tame, user]
  obtain rfl := congrArg Prod.snd (Option.some.inj (h.symm.trans (by rfl : _ = some _)))
  refine ⟨fun _ _ => trivial, fun x u h => ?_⟩
  obtain rfl := congrArg Prod.snd (Option.some.inj (h.symm.trans (by rfl : _ = some _)))
  refine ⟨fun _ _ => trivial, fun x u h => ?_⟩
  obtain rfl := congrArg Prod.snd (Option.some.inj (h.symm.trans (by rfl : _ = some _)))
  refine ⟨fun _ _ => trivial, fun x u h => ?_⟩
  obtain rfl := congrArg Prod.snd (Option.some.inj (h.symm.trans (by rfl : _ = some _)))
  refine ⟨fun l hl => ?_, fun x u h => trivial⟩
  obtain rfl := Option.some.inj (hl.symm.trans (by rfl : _ = some [1, 5])); simp [Tame, user]

/-- With a clone and an iterator that unwind, and destructors that do not. -/
example : (∀ x, (⟨fun _ => false, user.cl⟩ : User Nat).bad x = false) ∧
    (urun ⟨fun _ => false, user.cl⟩ env ⟨.new, 0⟩ story).map (fun p => (p.1, p.2.s.dropped, p.2.lost)) =
    some ([.unwound [], .unwound [], .done .unit, .done (.yielded []), .done (.refs [1, 3]), .done .unit, .done (.yielded [1])], [4, 2, 3, 5], 0) :=
  ⟨fun _ => rfl, by decide +kernel⟩

/-- Refuted: when a destructor unwinds out of `truncate`, the vector keeps its length, so that it still holds the elements that were
dropped. -/
theorem C62_truncate_refuted {e : Env} (w : User α) (u : USt α) (l : List α) (h : VInv e u.s.v l) (n : Nat)
    (hg : (glue w.bad false (l.drop n)).2 = .unwound) :
    ∃ u', ustep w e u (.truncate n) = some (.unwound [], u') ∧ u'.s.dropped = u.s.dropped ++ l.drop n ∧ slice u'.s.v 0 u'.s.v.len = some l := by
  obtain ⟨rest, hd⟩ := h.data
  have hn : ¬ l.length ≤ n := by
    intro hle; rw [List.drop_eq_nil_of_le hle] at hg; simp [glue] at hg
  have e0 : (l.drop n).take (l.length - n) = l.drop n := List.take_of_length_le (by simp)
  refine ⟨⟨{ u.s with dropped := u.s.dropped ++ l.drop n }, u.lost⟩, ?_, rfl, view (v := u.s.v) h⟩
  simp only [ustep, truncateU, h.len, if_neg hn, dropGlue_spec w.bad false u.s l rest hd n _ (by omega : n + (l.length - n) ≤ l.length), e0, hg,
    glue_whole w.bad false (l.drop n) (by simp [hg])]
  rfl

/-- Hence elements are dropped twice: `2` and `3` here, by `truncate` and by the drop of the vector. -/
theorem C62_truncate_twice_refuted : (urun user env ⟨.new, 0⟩ [.extend [1, 2, 3] 3 (some 3) false, .truncate 1, .drop]).map
    (fun p => (p.1, p.2.s.dropped)) = some ([.done .unit, .unwound [], .unwound []], [2, 3, 1, 2, 3]) := by decide +kernel

/-- Refuted: when a destructor unwinds out of the drop of `IntoIter`, its vector is dropped with its whole length: the element `1`, which the
caller has, is dropped, then `2` a second time (which unwinds again, and aborts the process). -/
theorem C62_into_iter_refuted : (urun user env ⟨.new, 0⟩ [.extend [1, 2, 3] 3 (some 3) false, .intoIter 1]).map
    (fun p => (p.1, p.2.s.dropped)) = some ([.done .unit, .aborted], [2, 3, 1, 2]) := by decide +kernel

/-- A vector whose drop unwinds does not release its block: every drop of a vector of one element with an unwinding destructor loses one. -/
theorem C62_drop_block_refuted {e : Env} (w : User α) (u : USt α) (l : List α) (h : VInv e u.s.v l) (hb : Bal u.s) (hl : l ≠ [])
    (hg : (glue w.bad false l).2 = .unwound) : ∃ u', ustep w e u .drop = some (.unwound [], u') ∧ u'.lost = u.lost + 1 := by
  obtain ⟨r, u', h1, h2⟩ := dropU_good w u l h hb
  have hc : u.s.v.cap ≠ 0 := by
    have := h.le; have := List.length_pos_iff.2 hl; omega
  obtain ⟨f, u2, d1, d2, _⟩ := dropVecU_spec (e := e) w.bad false u l h hb
  rcases h2 with ⟨rfl, _⟩ | ⟨h3, rfl, _⟩ | ⟨h3, rfl, h4, _⟩
  · simp only [ustep, d1, d2, hg] at h1; cases h1
  · rw [glue_all _ _ _ h3] at hg; cases hg
  · exact ⟨u', h1, by simpa [live, hc] using h4⟩

example : (urun user env ⟨.new, 0⟩ [.extend [1, 2] 2 (some 2) false, .drop]).map (fun p => (p.1, p.2.s.dropped, p.2.s.frees, p.2.lost)) =
    some ([.done .unit, .unwound []], [1, 2], 0, 1) := by decide +kernel

/-- A drained range in which a destructor unwinds loses the elements after it, although they are not in the range: `3` is neither in the
vector nor ever dropped. -/
theorem C62_drain_tail_refuted : (urun user env ⟨.new, 0⟩ [.extend [1, 2, 3] 3 (some 3) false, .drain 1 2 0 false, .asSlice, .drop]).map
    (fun p => (p.1, p.2.s.dropped)) = some ([.done .unit, .unwound [], .done (.refs [1]), .done .unit], [2, 1]) := by decide +kernel

/-- A clone that unwinds loses the copies made so far: `101` is never dropped. -/
theorem C62_clone_copies_refuted : (urun user env ⟨.new, 0⟩ [.extend [1, 3] 2 (some 2) false, .clone, .drop]).map
    (fun p => (p.1, p.2.s.dropped, p.2.lost)) = some ([.done .unit, .unwound [], .done .unit], [1, 3], 0) := by decide +kernel

end Verif.Props.Unwind
