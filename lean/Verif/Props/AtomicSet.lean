import Verif.Swap.Linear

/-! Property C31. -/
namespace Verif.Props.AtomicSet
open Verif.Swap
variable {V : Type} {empty : V} {keep : Bool} {n : Nat}

/-! ### Schedules given by lists -/

/-- The schedule that follows a list (and then repeats a step that thread 0 makes only while it has a tree to publish). -/
def sched (l : List (Act V)) : Nat → Act V := fun i => l[i]?.getD (.cas 0)

def isLoaded : Pc V → Bool
  | .loaded .. => true
  | _ => false

/-- Executable form of `NoRace`. -/
def noRaceB (empty : V) (keep : Bool) (n : Nat) (s : Nat → Act V) (T : Nat) : Bool :=
  (List.range T).all fun i => match exec empty keep n s i with
    | none => true
    | some c => (List.range c.ts.length).all fun t => match c.ts[t]? with
      | some p => !isLoaded p || (match s i with
        | .copy u => u == t
        | _ => false)
      | none => true

theorem noRace_of {s : Nat → Act V} {T : Nat} (h : noRaceB empty keep n s T = true) : NoRace empty keep n s T := by
  intro i hi c hc t f seen cur ht
  simp only [noRaceB, List.all_eq_true, List.mem_range] at h
  have h1 := h i hi
  rw [hc] at h1
  simp only [List.all_eq_true, List.mem_range] at h1
  have h2 := h1 t (List.getElem?_eq_some_iff.mp ht).1
  rw [ht] at h2
  simp only [isLoaded] at h2
  cases hs : s i with
  | copy u => simp [hs] at h2; rw [h2]
  | _ => simp [hs] at h2

/-- Executable form of `NoAba`. -/
def noAbaB (empty : V) (keep : Bool) (n : Nat) (s : Nat → Act V) (T : Nat) : Bool :=
  (List.range T).all fun i => match s i with
    | .make _ a _ => match exec empty keep n s i with
      | none => true
      | some c => c.ts.all fun p => p.cur != some a
    | .mutate _ => false
    | _ => true

theorem noAba_of {s : Nat → Act V} {T : Nat} (h : noAbaB empty keep n s T = true) : NoAba empty keep n s T := by
  intro i hi
  simp only [noAbaB, List.all_eq_true, List.mem_range] at h
  have h1 := h i hi
  refine ⟨fun t ht => (by rw [ht] at h1; cases h1), fun c hc t a early hs u p hp => ?_⟩
  simp only [hs, hc, List.all_eq_true] at h1
  have h2 := h1 p (List.mem_of_getElem? hp)
  simpa using h2

/-- The closure that adds `k` to a set of numbers: what it was given if `k` is in it, otherwise a new tree. -/
def ins (k : Nat) : Fn (List Nat)
  | [] => .same
  | v :: _ => if k ∈ v then .same else .node (v ++ [k])

/-! ### What holds -/

/-- C31.  Calls to `edit`, by any number of threads, behave as if each took effect at one instant between its beginning and its end, as long as nobody
runs between a thread's reading of the pointer and its taking a handle through it, no root is allocated at an address that a thread in the middle of
its loop remembers, and no closure changes in place the tree it was given.  Missing: the code ensures none of the three (see the refutations). -/
theorem C31_linearizable_partial (empty : V) (n : Nat) (s : Nat → Act V) (T : Nat) (hr : NoRace empty false n s T) (ha : NoAba empty false n s T) :
    ∃ lin, Linearizes empty false n s T lin := by
  obtain ⟨lin, c, h⟩ := linearizes hr (.inr ha)
  exact ⟨lin, h.isLin⟩

/-- C31.  A loop that keeps its handle on the tree it read until the exchange (as `VtVec::insert` does) needs no assumption on addresses. -/
theorem C31_keeping_handle_partial (empty : V) (n : Nat) (s : Nat → Act V) (T : Nat) (hr : NoRace empty true n s T) :
    ∃ lin, Linearizes empty true n s T lin := by
  obtain ⟨lin, c, h⟩ := linearizes hr (.inl rfl)
  exact ⟨lin, h.isLin⟩

/-- From step `i` on, what every closure that takes effect preserves stays true. -/
theorem stable {s : Nat → Act V} {T : Nat} {lin : Nat → Option Nat} (h : Linearizes empty keep n s T lin) {P : V → Prop}
    (hP : ∀ j < T, ∀ t f seen, Ends empty keep n s j t f seen → ∀ x prev, seen = x :: prev → P x → P ((f (x :: prev)).apply empty x))
    (hdom : ∀ i < T, ∀ j, lin i = some j → j < T)
    {i : Nat} {x : V} (hx : At empty keep n s i x) (hp : P x) {k : Nat} (hik : i ≤ k) (hk : k ≤ T) {y : V} (hy : At empty keep n s k y) : P y := by
  induction k generalizing y with
  | zero =>
    have : i = 0 := by omega
    subst this; rw [← hx.unique hy]; exact hp
  | succ k ih =>
    by_cases hik' : i = k + 1
    · subst hik'; rw [← hx.unique hy]; exact hp
    · have ⟨c, hc, _⟩ := hy
      obtain ⟨d, hd⟩ := exec_prefix hc (i := k) (by omega)
      have h1 := ih (by omega) (by omega) (y := d.content empty) ⟨d, hd, rfl⟩
      cases hl : lin k with
      | none =>
        rw [h.quiet k (by omega) hl _ _ ⟨d, hd, rfl⟩ hy]; exact h1
      | some j =>
        obtain ⟨t, f, prev, x', he, hx', hz⟩ := h.effect k (by omega) j hl
        rw [← hz.unique hy]
        rw [(hx'.unique ⟨d, hd, rfl⟩ : x' = d.content empty)] at he ⊢
        exact hP j (hdom k (by omega) j hl) t f _ he _ prev rfl h1

/-- C31.  No edit is lost: what a call's closure establishes, and the closures of all calls preserve, is true ever after the call ended (under the
assumptions of `C31_linearizable_partial`). -/
theorem C31_no_edit_lost_partial (empty : V) (keep : Bool) (n : Nat) (s : Nat → Act V) (T : Nat) (hr : NoRace empty keep n s T)
    (ha : keep = true ∨ NoAba empty keep n s T) (P : V → Prop)
    (hP : ∀ j < T, ∀ t f seen, Ends empty keep n s j t f seen → ∀ x prev, seen = x :: prev → P x → P ((f (x :: prev)).apply empty x))
    (j t : Nat) (f : Fn V) (seen : List V) (hj : j < T) (he : Ends empty keep n s j t f seen)
    (hf : ∀ x prev, P ((f (x :: prev)).apply empty x)) :
    ∃ c, exec empty keep n s T = some c ∧ P (c.content empty) := by
  obtain ⟨lin, c, h⟩ := linearizes hr ha
  refine ⟨c, h.at_, ?_⟩
  obtain ⟨i, b, hl, _, _, hij, _⟩ := h.isLin.once j hj t f seen he
  obtain ⟨t', f', prev, x, he', hx, hy⟩ := h.isLin.effect i (by omega) j hl
  have : f' = f := by
    obtain ⟨c1, h1, h2, _, _, _, h3, _⟩ := he
    obtain ⟨c2, h4, h5, _, _, _, h6, _⟩ := he'
    rw [h1] at h4; cases h4
    rw [h2] at h5; cases h5
    rw [h3] at h6; cases h6; rfl
  subst this
  exact stable h.isLin hP (fun i _ j hl => (h.dom i j hl).2.1) hy (hf x prev) (by omega) (Nat.le_refl T) ⟨c, h.at_, rfl⟩

/-- C31.  Memory: when nobody runs between a thread's reading of the pointer and its taking a handle through it, no released memory is ever accessed
(whatever addresses the allocator returns), every tree's counter is the number of handles on it, and when no call is in progress the only root
in memory is that of the set, with a counter of one.  Missing: the assumption is not ensured by the code. -/
theorem C31_memory_partial (empty : V) (keep : Bool) (n : Nat) (s : Nat → Act V) (T : Nat) (hr : NoRace empty keep n s T) :
    ∃ c, exec empty keep n s T = some c ∧
      ((∀ (t : Nat) (p : Pc V), c.ts[t]? = some p → p = .idle) → ∀ a o, c.mem a = some o → c.cell = some a ∧ o.strong = 1) := by
  have key : ∃ c, exec empty keep n s T = some c ∧ ∀ (t : Nat) (f : Fn V) (seen : List V) (cur : Option Nat), c.ts[t]? = some (.loaded f seen cur) → c.cell = cur := by
    induction T with
    | zero =>
      refine ⟨Cfg.new n, rfl, fun t f seen cur h => ?_⟩
      simp [Cfg.new, List.getElem?_replicate] at h
    | succ T ih =>
      obtain ⟨c, hc, hl⟩ := ih (hr.mono (by omega))
      have hi := exec_inv hc
      rcases step_spec empty keep hi (s T) with ⟨d, hd, hid, hm⟩ | ⟨_, t, f, seen, a, hact, ht, hmem⟩
      · refine ⟨d, by simp only [exec, hc]; exact hd, fun t f seen cur ht => ?_⟩
        by_cases hta : t = (s T).actor
        · generalize hact : s T = act at *
          subst hta
          cases hm with
          | stay _ h1 => 
            have h2 := hr T (by omega) c hc _ f seen cur ht
            rw [hact] at h2
            exact absurd ht (h1 _ f seen cur h2)
          | start h => simp only [setPc, Act.actor] at ht ⊢; rw [ts_self h] at ht; cases ht; rfl
          | copyNull h => simp only [setPc, Act.actor] at ht; rw [ts_self h] at ht; cases ht
          | copy h _ _ hts => simp only [Act.actor] at ht; rw [hts, ts_self h] at ht; cases ht
          | same h => simp only [setPc, Act.actor] at ht; rw [ts_self h] at ht; cases ht
          | null h _ _ hts => simp only [Act.actor] at ht; rw [hts, ts_self h] at ht; cases ht
          | node h _ _ _ _ _ _ _ hts => simp only [Act.actor] at ht; rw [hts, ts_self h] at ht; cases ht
          | mutate h _ _ _ _ _ _ hts => simp only [Act.actor] at ht; rw [hts, ts_self h] at ht; cases ht
          | @again t' act _ _ _ _ _ _ ha h _ _ _ hcell hts =>
            have : act.actor = t' := by rcases ha with rfl | rfl <;> rfl
            rw [this, hts, ts_self h] at ht; cases ht; exact hcell
          | unchanged h _ hts => simp only [Act.actor] at ht; rw [hts, ts_self h] at ht; cases ht
          | swap h _ _ _ hts => simp only [Act.actor] at ht; rw [hts, ts_self h] at ht; cases ht
        · rw [hm.ts_other hta] at ht
          have h1 := hr T (by omega) c hc t f seen cur ht
          exact absurd (by rw [h1]; rfl) hta
      · exfalso
        have h1 := hl t f seen (some a) ht
        obtain ⟨o, ho⟩ := hi.cell_live h1
        rw [hmem] at ho; cases ho
  obtain ⟨c, hc, _⟩ := key
  refine ⟨c, hc, fun hidle a o ho => ?_⟩
  have hi := exec_inv hc
  have ht : total a c.ts = 0 := by
    have : ∀ p ∈ c.ts, p = .idle := fun p hp => by
      obtain ⟨t, ht⟩ := List.getElem?_of_mem hp
      exact hidle t p ht
    revert this
    generalize c.ts = l
    intro this
    induction l with
    | nil => rfl
    | cons p l ih =>
      have h1 := this p (by simp)
      have h2 := ih (fun q hq => this q (by simp [hq]))
      subst h1
      simp only [total, List.map_cons, List.sum_cons, Pc.holds] at *
      omega
  have h1 := hi.1 a
  have h2 := hi.2 a o ho
  simp only [cnt, ho, ht] at h1
  unfold own at h1
  split at h1
  · exact ⟨by assumption, by omega⟩
  · omega

/-- Two threads add 1 and 2; the second finds that the first was faster and calls its closure again.  The schedule meets the assumptions. -/
def retry : List (Act (List Nat)) :=
  [.start 0 (ins 1), .copy 0, .start 1 (ins 2), .copy 1, .make 0 10 true, .make 1 11 true, .cas 0, .cas 1, .copy 1, .make 1 12 true, .cas 1]

example : NoRace [] false 2 (sched retry) 11 := noRace_of (by decide)
example : NoAba [] false 2 (sched retry) 11 := noAba_of (by decide)
example : (exec [] false 2 (sched retry) 11).map (·.content []) = some [1, 2] := by decide
example : Ends [] false 2 (sched retry) 10 1 (ins 2) [[1], []] := ⟨_, rfl, rfl, _, _, _, rfl, .inr rfl⟩
example (P : List Nat → Prop) (hP : P = fun v => 1 ∈ v) : ∀ x prev, P x → P ((ins 2 (x :: prev)).apply [] x) := by
  subst hP; intro x prev h; simp only [ins]; split <;> simp [Next.apply, h]
example : ∀ (x : List Nat) (prev : List (List Nat)), 1 ∈ (ins 1 (x :: prev)).apply [] x := by
  intro x prev; simp only [ins]; split <;> simp_all [Next.apply]

/-! ### What does not hold -/

/-- Thread 1 reads the pointer; thread 0 replaces the tree and thereby releases its root; thread 1 then increments the root's counter. -/
def raced : List (Act (List Nat)) :=
  [.start 0 (ins 1), .copy 0, .make 0 10 true, .cas 0, .start 1 (ins 2), .start 0 (ins 3), .copy 0, .make 0 11 true, .cas 0, .copy 1]

/-- C31 does not hold: `edit` (and `get`) may access released memory, because between reading the pointer and taking a handle through it
(arc_btree.rs:40-42, 72) another thread may release the tree. -/
theorem C31_use_after_free_refuted : ¬ ∀ (s : Nat → Act (List Nat)) (T : Nat), (exec [] false 2 s T).isSome = true := by
  intro h
  exact absurd (h (sched raced) 10) (by decide)

/-- Thread 1 reads tree 10 (`{1}`) and prepares `{1,2}`.  Meanwhile thread 0 adds 3 (tree 11, releasing 10) and then 4, in a tree whose root is allocated
where the old one was.  Thread 1's exchange succeeds. -/
def aba : List (Act (List Nat)) :=
  [.start 0 (ins 1), .copy 0, .make 0 10 true, .cas 0, .start 1 (ins 2), .copy 1, .make 1 20 true,
   .start 0 (ins 3), .copy 0, .make 0 11 true, .cas 0, .start 0 (ins 4), .copy 0, .make 0 10 true, .cas 0, .cas 1]

/-- C31 does not hold even if nobody runs between a thread's reading of the pointer and its taking a handle: a call of `edit` keeps no
handle on the tree it started from, the allocator may reuse its address, and then `compare_exchange` (arc_btree.rs:49-54) succeeds although the tree was
replaced in the meantime.  All the edits made in between are lost. -/
theorem C31_lost_edit_refuted : ¬ ∀ (s : Nat → Act (List Nat)) (T : Nat), NoRace [] false 2 s T → ∃ lin, Linearizes [] false 2 s T lin := by
  intro h
  obtain ⟨lin, hlin⟩ := h (sched aba) 16 (noRace_of (by decide))
  -- the call that adds 3 ended at step 10, and took effect at or before it
  have hat : ∀ k v, (exec [] false 2 (sched aba) k).map (·.content []) = some v → At [] false 2 (sched aba) k v := by
    intro k v hk
    cases hc : exec [] false 2 (sched aba) k with
    | none => rw [hc] at hk; cases hk
    | some c => rw [hc] at hk; simp at hk; exact ⟨c, hc, hk⟩
  have h15 : At [] false 2 (sched aba) 15 [1, 3, 4] := hat 15 _ (by decide)
  have h16 : At [] false 2 (sched aba) 16 [1, 2] := hat 16 _ (by decide)
  cases hl : lin 15 with
  | none =>
    have := hlin.quiet 15 (by omega) hl _ _ h15 h16
    revert this; decide
  | some j =>
    obtain ⟨t, f, prev, x, he, hx, hy⟩ := hlin.effect 15 (by omega) j hl
    have hx' := hx.unique h15
    subst hx'
    -- no call was ever given {1,3,4}
    obtain ⟨c, hc, hcas, cur, new, kept, hp, _⟩ := he
    have seenB : ∀ k < 17, ∀ c, exec [] false 2 (sched aba) k = some c → (c.ts.all fun p => match p with
        | .ready _ seen _ _ _ => seen.head? != some [1, 3, 4]
        | _ => true) = true := by
      have : ∀ k < 17, ((exec [] false 2 (sched aba) k).all fun c => c.ts.all fun p => match p with
        | .ready _ seen _ _ _ => seen.head? != some [1, 3, 4]
        | _ => true) = true := by decide
      intro k hk c hc
      have h1 := this k hk
      rw [hc] at h1; exact h1
    by_cases hj : j < 17
    · have h1 := seenB j hj c hc
      rw [List.all_eq_true] at h1
      have h2 := h1 _ (List.mem_of_getElem? hp)
      simp at h2
    · -- after that, all threads are idle forever
      have idle : ∀ k, exec [] false 2 (sched aba) (16 + k) = exec [] false 2 (sched aba) 16 := by
        intro k
        induction k with
        | zero => rfl
        | succ k ih =>
          rw [Nat.add_succ]
          simp only [exec]
          rw [ih]
          have hs : sched aba (16 + k) = .cas 0 := by simp [sched, aba]
          rw [hs]
          rfl
      have h1 := idle (j - 16)
      rw [show 16 + (j - 16) = j by omega, hc] at h1
      have h2 := seenB 16 (by omega) c h1.symm
      rw [List.all_eq_true] at h2
      have h3 := h2 _ (List.mem_of_getElem? hp)
      simp at h3

example : (exec [] false 2 (sched aba) 11).map (·.content []) = some [1, 3] := by decide
example : (exec [] false 2 (sched aba) 16).map (·.content []) = some [1, 2] := by decide
/-- With a handle kept, the same schedule cannot take place: the address is not free. -/
example : (exec [] true 2 (sched aba) 16).map (·.content []) = some [1, 3] := by decide

/-- Thread 1 has its copy of tree 10 while thread 0 replaces it; thread 1's closure drops the copy, which releases the root, and then allocates its new
root there. -/
def skip : List (Act (List Nat)) :=
  [.start 0 (ins 1), .copy 0, .make 0 10 true, .cas 0, .start 1 (ins 2), .copy 1, .start 0 (ins 3), .copy 0, .make 0 11 true, .cas 0,
   .make 1 10 false, .cas 1]

/-- C31 does not hold: `edit` takes equality of addresses (arc_btree.rs:44-46) for "the closure changed nothing", but the new tree may be allocated where
the old one was.  Here the call that adds 2 ends without having any effect. -/
theorem C31_skipped_edit_refuted : ¬ ∀ (s : Nat → Act (List Nat)) (T : Nat), NoRace [] false 2 s T →
    ∀ j < T, ∀ t k seen, Ends [] false 2 s j t (ins k) seen → ∀ v, At [] false 2 s (j + 1) v → k ∈ v := by
  intro h
  refine absurd (h (sched skip) 12 (noRace_of (by decide)) 11 (by omega) 1 2 [[1]] ⟨_, rfl, rfl, _, _, _, rfl, .inl rfl⟩ [1, 3] ⟨_, rfl, rfl⟩) (by decide)

/-- Thread 1 has its copy of tree 10 while thread 0 replaces it; when thread 1's closure adds 2 there is no other handle on the root, so it is changed in
place and its address is still 10. -/
def inPlace : List (Act (List Nat)) :=
  [.start 0 (ins 1), .copy 0, .make 0 10 true, .cas 0, .start 1 (ins 2), .copy 1, .start 0 (ins 3), .copy 0, .make 0 11 true, .cas 0, .mutate 1, .cas 1]

/-- C31 does not hold, even with an allocator that never returns the same address twice: `edit(|mut set| { set.insert(x); set })` changes the tree in place if
another thread has replaced it in the meantime, the address is then that of the tree it was given, and `edit` returns (arc_btree.rs:44-46) as if the closure had
changed nothing.  The edit is lost. -/
theorem C31_in_place_edit_refuted : ¬ ∀ (s : Nat → Act (List Nat)) (T : Nat), NoRace [] false 2 s T →
    (∀ i < T, ∀ i' < T, ∀ t t' a e e', s i = .make t a e → s i' = .make t' a e' → i = i') →
    ∀ j < T, ∀ t k seen, Ends [] false 2 s j t (ins k) seen → ∀ v, At [] false 2 s (j + 1) v → k ∈ v := by
  intro h
  refine absurd (h (sched inPlace) 12 (noRace_of (by decide)) ?_ 11 (by omega) 1 2 [[1]] ⟨_, rfl, rfl, _, _, _, rfl, .inl rfl⟩ [1, 3] ⟨_, rfl, rfl⟩) (by decide)
  have key : ∀ i < 12, ∀ i' < 12, (match sched inPlace i, sched inPlace i' with
      | .make _ a _, .make _ a' _ => a != a' || i == i'
      | _, _ => true) = true := by decide
  intro i hi i' hi' t t' a e e' h1 h2
  have := key i hi i' hi'
  rw [h1, h2] at this
  simpa using this

end Verif.Props.AtomicSet
