import Verif.Swap.Registry
import Verif.Props.AtomicSet

/-! Property C32. -/
namespace Verif.Props.Registry
open Verif.Swap Verif.Swap.Registry Verif.Props.AtomicSet
variable {K : Type} [DecidableEq K] {keep : Bool} {n : Nat} {s : Nat → Act (Reg K)} {T : Nat}

/-- All calls are calls of `insert` or `get`. -/
def OnlyInserts (s : Nat → Act (Reg K)) (T : Nat) : Prop :=
  ∀ i < T, ∀ t f, s i = .start t f → f = getFn ∨ ∃ start k b, StartOk start ∧ f = insertFn start k b

/-- Step `j` ends a call of `insert` for contents `k` that returns `addr`. -/
def Returns (keep : Bool) (n : Nat) (s : Nat → Act (Reg K)) (j : Nat) (k : K) (addr : Nat) : Prop :=
  ∃ t start b seen, StartOk start ∧ Ends [] keep n s j t (insertFn start k b) seen ∧ addr = result start k b seen

theorem lookup_none_iff (k : K) (v : Reg K) : v.lookup k = none ↔ k ∉ v.map (·.1) := by
  induction v with
  | nil => simp
  | cons p v ih =>
    obtain ⟨k', b⟩ := p
    by_cases h : k = k'
    · subst h; simp [List.lookup]
    · have : (k == k') = false := by simpa using h
      simp [List.lookup, this, ih, h]

theorem lookup_mem {k : K} {b : Nat} {v : Reg K} (h : v.lookup k = some b) : (k, b) ∈ v := by
  induction v with
  | nil => simp at h
  | cons p v ih =>
    obtain ⟨k', b'⟩ := p
    by_cases hk : k = k'
    · subst hk; simp [List.lookup] at h; simp [h]
    · have : (k == k') = false := by simpa using hk
      simp [List.lookup, this] at h
      exact List.mem_cons_of_mem _ (ih h)

theorem lookup_of_mem {k : K} {b : Nat} {v : Reg K} (hn : (v.map (·.1)).Nodup) (h : (k, b) ∈ v) : v.lookup k = some b := by
  induction v with
  | nil => simp at h
  | cons p v ih =>
    obtain ⟨k', b'⟩ := p
    simp only [List.map_cons, List.nodup_cons] at hn
    rcases List.mem_cons.mp h with h' | h'
    · cases h'; simp
    · have hk : k ≠ k' := by
        rintro rfl
        exact hn.1 (List.mem_map.mpr ⟨(k, b), h', rfl⟩)
      have : (k == k') = false := by simpa using hk
      simp [List.lookup, this]
      exact ih hn.2 h'

/-- If the search failed on every earlier version, and all of them are parts of the present one, the vtable is in none of them. -/
theorem absent_prev {start : List (Reg K) → Nat} (hst : StartOk start) {k : K} {b : Nat} {x : Reg K} (prev : List (Reg K))
    (hpre : ∀ y ∈ prev, y <+: x) (htried : ∀ r, r <:+ prev → r ≠ [] → insertFn start k b r ≠ .same) : ∀ y ∈ prev, k ∉ y.map (·.1) := by
  induction prev with
  | nil => simp
  | cons y prev ih =>
    have ih' := ih (fun z hz => hpre z (by simp [hz])) (fun r hr => htried r (hr.trans (List.suffix_cons y prev)))
    intro z hz
    rcases List.mem_cons.mp hz with rfl | hz
    · have h1 := htried (z :: prev) (List.suffix_refl _) (by simp)
      simp only [insertFn] at h1
      split at h1
      · exact absurd rfl h1
      · rename_i hl
        rw [lookup_none_iff] at hl
        cases prev with
        | nil => rw [hst.1] at hl; simpa using hl
        | cons y' prev' =>
          have hy' := ih' y' (by simp)
          have hle := hst.2 y' prev'
          rcases List.prefix_or_prefix_of_prefix (hpre z (by simp)) (hpre y' (by simp)) with hp | hp
          · intro hk; exact hy' (hp.map (·.1) |>.subset hk)
          · intro hk
            have hsplit : z.map (·.1) = (z.take (start (y' :: prev'))).map (·.1) ++ (z.drop (start (y' :: prev'))).map (·.1) := by
              rw [← List.map_append, List.take_append_drop]
            rw [hsplit] at hk
            rcases List.mem_append.mp hk with hk | hk
            · obtain ⟨w, rfl⟩ := hp
              rw [List.take_append_of_le_length hle] at hk
              exact hy' ((List.take_subset _ _ |> List.map_subset _) hk)
            · exact hl hk
    · exact ih' z hz

/-- What an attempt that takes effect does. -/
theorem absent {start : List (Reg K) → Nat} (hst : StartOk start) {k : K} {b : Nat} {x : Reg K} {prev : List (Reg K)}
    (hpre : ∀ y ∈ prev, y <+: x) (htried : ∀ r, r <:+ prev → r ≠ [] → insertFn start k b r ≠ .same)
    (hl : (x.drop (start prev)).lookup k = none) : k ∉ x.map (·.1) := by
  rw [lookup_none_iff] at hl
  cases prev with
  | nil => rw [hst.1] at hl; simpa using hl
  | cons y prev =>
    have hy := absent_prev hst (y :: prev) hpre htried y (by simp)
    have hle := hst.2 y prev
    obtain ⟨w, hw⟩ := hpre y (by simp)
    intro hk
    have hsplit : x.map (·.1) = (x.take (start (y :: prev))).map (·.1) ++ (x.drop (start (y :: prev))).map (·.1) := by
      rw [← List.map_append, List.take_append_drop]
    rw [hsplit] at hk
    rcases List.mem_append.mp hk with hk | hk
    · rw [← hw, List.take_append_of_le_length hle] at hk
      exact hy ((List.take_subset _ _ |> List.map_subset _) hk)
    · exact hl hk

theorem get_ne_insert {start : List (Reg K) → Nat} {k : K} {b : Nat} : insertFn start k b ≠ getFn := by
  intro h
  have := congrFun h [[]]
  simp [insertFn, getFn] at this

/-- The contents grow, and hold every key once. -/
theorem grows {lin : Nat → Option Nat} (h : Linearizes [] keep n s T lin) (hdom : ∀ i < T, ∀ j, lin i = some j → j < T) (ho : OnlyInserts s T) :
    ∀ k ≤ T, ∀ y, At [] keep n s k y → (y.map (·.1)).Nodup ∧ ∀ i ≤ k, ∀ x, At [] keep n s i x → x <+: y := by
  intro k
  induction k with
  | zero =>
    intro _ y hy
    have h0 : At [] keep n s 0 [] := ⟨Cfg.new n, rfl, rfl⟩
    rw [hy.unique h0]
    refine ⟨by simp, fun i hi x hx => ?_⟩
    have : i = 0 := by omega
    subst this; rw [hx.unique h0]; exact List.prefix_refl _
  | succ k ih =>
    intro hk y hy
    have ⟨c, hc, _⟩ := hy
    obtain ⟨d, hd⟩ := exec_prefix hc (i := k) (by omega)
    obtain ⟨hnd, hpre⟩ := ih (by omega) (d.content []) ⟨d, hd, rfl⟩
    have key : (y.map (·.1)).Nodup ∧ d.content [] <+: y := by
      cases hl : lin k with
      | none =>
        rw [h.quiet k (by omega) hl _ _ ⟨d, hd, rfl⟩ hy]
        exact ⟨hnd, List.prefix_refl _⟩
      | some j =>
        obtain ⟨t, f, prev, x, he, hx, hz⟩ := h.effect k (by omega) j hl
        have hjT := hdom k (by omega) j hl
        obtain ⟨i, b, h1, h2, h3, h4, h5, _, h6, h7⟩ := h.once j hjT t f _ he
        have hki := h2 k hl
        subst hki
        rw [← hz.unique hy]
        have hxd := hx.unique ⟨d, hd, rfl⟩
        subst hxd
        obtain ⟨cb, hcb, hsb, _⟩ := h5
        rcases ho b (by omega) t f hsb with rfl | ⟨start, k', b', hst, rfl⟩
        · exact ⟨hnd, List.prefix_refl _⟩
        · simp only [insertFn]
          cases hlk : ((d.content []).drop (start prev)).lookup k' with
          | some _ => exact ⟨hnd, List.prefix_refl _⟩
          | none =>
            have hab := absent hst (x := d.content []) (fun y hy => by
              obtain ⟨i', hi1, hi2, hi3⟩ := h6 y hy
              exact hpre i' hi2 y hi3) h7 hlk
            refine ⟨?_, List.prefix_append _ _⟩
            simp only [Next.apply, List.map_append, List.map_cons, List.map_nil]
            rw [List.nodup_append]
            refine ⟨hnd, by simp, ?_⟩
            intro a ha b hb
            simp at hb; subst hb
            rintro rfl; exact hab ha
    refine ⟨key.1, fun i hi x hx => ?_⟩
    by_cases hik : i = k + 1
    · subst hik; rw [hx.unique hy]; exact List.prefix_refl _
    · exact (hpre i (by omega) x hx).trans key.2

/-- Once `insert` has returned `addr` for `k`, the registry's only entry for `k` is at `addr`. -/
theorem registered {lin : Nat → Option Nat} (h : Linearizes [] keep n s T lin) (hdom : ∀ i < T, ∀ j, lin i = some j → j < T) (ho : OnlyInserts s T)
    {j : Nat} (hj : j < T) {k : K} {addr : Nat} (hr : Returns keep n s j k addr) {i : Nat} (hji : j < i) (hi : i ≤ T) {v : Reg K} (hv : At [] keep n s i v) :
    v.lookup k = some addr := by
  obtain ⟨t, start, b, seen, hst, he, hres⟩ := hr
  obtain ⟨i0, b0, h1, h2, h3, h4, h5, _, h6, h7⟩ := h.once j hj t _ seen he
  obtain ⟨t', f', prev, x, he', hx, hy⟩ := h.effect i0 (by omega) j h1
  have heq : f' = insertFn start k b ∧ x :: prev = seen := by
    obtain ⟨c1, a1, a2, _, _, _, a3, _⟩ := he
    obtain ⟨c2, a4, a5, _, _, _, a6, _⟩ := he'
    rw [a1] at a4; cases a4
    rw [a2] at a5; cases a5
    rw [a3] at a6; cases a6; exact ⟨rfl, rfl⟩
  obtain ⟨rfl, rfl⟩ := heq
  have ⟨hnd, hpre⟩ := grows h hdom ho i hi v hv
  have hmem : (k, addr) ∈ (insertFn start k b (x :: prev)).apply [] x := by
    simp only [insertFn]
    simp only [result] at hres
    cases hlk : (x.drop (start prev)).lookup k with
    | some b' =>
      rw [hlk] at hres; simp only at hres; subst hres
      exact List.mem_of_mem_drop (lookup_mem hlk)
    | none => rw [hlk] at hres; simp only at hres; subst hres; simp [Next.apply]
  exact lookup_of_mem hnd ((hpre (i0 + 1) (by omega) _ hy).subset hmem)

/-- Every entry was made by a call of `insert` with those contents, which allocated the slice at that address. -/
theorem origin {lin : Nat → Option Nat} (h : Linearizes [] keep n s T lin) (hdom : ∀ i < T, ∀ j, lin i = some j → j < T) (ho : OnlyInserts s T) :
    ∀ i ≤ T, ∀ v, At [] keep n s i v → ∀ e ∈ v, ∃ i' < T, ∃ t start, s i' = .start t (insertFn start e.1 e.2) := by
  intro i
  induction i with
  | zero =>
    intro _ v hv e he
    have h0 : At [] keep n s 0 [] := ⟨Cfg.new n, rfl, rfl⟩
    rw [hv.unique h0] at he; cases he
  | succ k ih =>
    intro hk y hy e hmem
    have ⟨c, hc, _⟩ := hy
    obtain ⟨d, hd⟩ := exec_prefix hc (i := k) (by omega)
    have ih' := ih (by omega) (d.content []) ⟨d, hd, rfl⟩
    cases hl : lin k with
    | none =>
      rw [h.quiet k (by omega) hl _ _ ⟨d, hd, rfl⟩ hy] at hmem
      exact ih' e hmem
    | some j =>
      obtain ⟨t, f, prev, x, he, hx, hz⟩ := h.effect k (by omega) j hl
      have hjT := hdom k (by omega) j hl
      obtain ⟨i, b, h1, h2, h3, h4, h5, _⟩ := h.once j hjT t f _ he
      rw [← hz.unique hy] at hmem
      have hxd := hx.unique ⟨d, hd, rfl⟩
      subst hxd
      obtain ⟨cb, hcb, hsb, _⟩ := h5
      rcases ho b (by omega) t f hsb with rfl | ⟨start, k', b', hst, rfl⟩
      · exact ih' e hmem
      · simp only [insertFn] at hmem
        split at hmem
        · exact ih' e hmem
        · simp only [Next.apply] at hmem
          rcases List.mem_append.mp hmem with hm | hm
          · exact ih' e hm
          · simp at hm; subst hm; exact ⟨b, by omega, t, start, hsb⟩

/-- C32.  Registering equal vtables yields the same address, whichever threads do it and whenever; from then on the registry has exactly one entry for that
vtable, at that address (this is what `VtBtree::insert` finds when it looks the vtable up after adding it), and the slice there was filled by a call for the
same vtable.  For `VtVec` (`keep`) this is proved when nobody runs between a thread's reading of the pointer and its taking a handle through it; for `VtBtree`
when also no root is allocated at an address that a thread in the middle of its loop remembers.  Missing: the code ensures neither (see the refutations). -/
theorem C32_interned_partial (keep : Bool) (n : Nat) (s : Nat → Act (Reg K)) (T : Nat) (hr : NoRace [] keep n s T) (ha : keep = true ∨ NoAba [] keep n s T)
    (ho : OnlyInserts s T) :
    (∀ j j' k addr addr', j < T → j' < T → Returns keep n s j k addr → Returns keep n s j' k addr' → addr = addr') ∧
    (∀ j k addr, j < T → Returns keep n s j k addr → ∀ i, j < i → i ≤ T → ∀ v, At [] keep n s i v →
      v.lookup k = some addr ∧ (v.map (·.1)).Nodup ∧ ∃ i' < T, ∃ t start, s i' = .start t (insertFn start k addr)) := by
  obtain ⟨lin, c, h⟩ := linearizes hr ha
  have hdom : ∀ i < T, ∀ j, lin i = some j → j < T := fun i _ j hl => (h.dom i j hl).2.1
  constructor
  · intro j j' k addr addr' hj hj' h1 h2
    have a1 := registered h.isLin hdom ho hj h1 (i := T) (by omega) (Nat.le_refl T) ⟨c, h.at_, rfl⟩
    have a2 := registered h.isLin hdom ho hj' h2 (i := T) (by omega) (Nat.le_refl T) ⟨c, h.at_, rfl⟩
    rw [a1] at a2; cases a2; rfl
  · intro j k addr hj h1 i hji hi v hv
    have a1 := registered h.isLin hdom ho hj h1 hji hi hv
    exact ⟨a1, (grows h.isLin hdom ho i hi v hv).1, origin h.isLin hdom ho i hi v hv (k, addr) (lookup_mem a1)⟩

def fromStart : List (Reg Nat) → Nat := fun _ => 0
/-- `VtVec` after attempts that failed at the exchange. -/
def fromEnd : List (Reg Nat) → Nat
  | [] => 0
  | v :: _ => v.length

theorem fromStart_ok : StartOk fromStart := ⟨rfl, fun _ _ => Nat.zero_le _⟩
theorem fromEnd_ok : StartOk fromEnd := ⟨rfl, fun _ _ => Nat.le_refl _⟩

/-- Two threads register the same vtable 7 in a `VtVec`; the slower finds the other's entry on its second attempt, in the part it has not searched yet. -/
def twice : List (Act (Reg Nat)) :=
  [.start 0 (insertFn fromEnd 7 100), .copy 0, .start 1 (insertFn fromEnd 7 200), .copy 1, .make 0 10 true, .make 1 11 true, .cas 0, .cas 1, .copy 1, .same 1, .cas 1]

example : NoRace [] true 2 (sched twice) 11 := noRace_of (by decide)
example : OnlyInserts (sched twice) 11 := by
  intro i hi t f h
  have : i = 0 ∨ i = 2 ∨ ∀ t f, sched twice i ≠ .start t f := by
    have : ∀ i < 11, i = 0 ∨ i = 2 ∨ (match sched twice i with | .start .. => false | _ => true) = true := by decide
    rcases this i hi with h | h | h
    · exact .inl h
    · exact .inr (.inl h)
    · refine .inr (.inr fun t f hh => ?_); rw [hh] at h; cases h
  rcases this with rfl | rfl | h'
  · cases h; exact .inr ⟨fromEnd, 7, 100, fromEnd_ok, rfl⟩
  · cases h; exact .inr ⟨fromEnd, 7, 200, fromEnd_ok, rfl⟩
  · exact absurd h (h' t f)
example : Returns true 2 (sched twice) 6 7 100 := ⟨0, fromEnd, 100, [[]], fromEnd_ok, ⟨_, rfl, rfl, _, _, _, rfl, .inr rfl⟩, rfl⟩
example : Returns true 2 (sched twice) 10 7 100 := ⟨1, fromEnd, 200, [[(7, 100)], []], fromEnd_ok, ⟨_, rfl, rfl, _, _, _, rfl, .inl rfl⟩, rfl⟩

/-- Thread 1 is about to register vtable 2 in a registry with root 10.  Meanwhile thread 0 registers 3 and 4; the second root is allocated where the first was.
Thread 1's exchange succeeds and erases both entries; then 3 is registered again. -/
def aba : List (Act (Reg Nat)) :=
  [.start 0 (insertFn fromStart 1 101), .copy 0, .make 0 10 true, .cas 0, .start 1 (insertFn fromStart 2 102), .copy 1, .make 1 20 true,
   .start 0 (insertFn fromStart 3 103), .copy 0, .make 0 11 true, .cas 0, .start 0 (insertFn fromStart 4 104), .copy 0, .make 0 10 true, .cas 0, .cas 1,
   .start 0 (insertFn fromStart 3 203), .copy 0, .make 0 30 true, .cas 0]

/-- C32 does not hold for `VtBtree`, which is the default registry (vtable/mod.rs:212-214): registering the same vtable twice may yield two addresses, because
`edit` may lose the first registration. -/
theorem C32_btree_refuted : ¬ ∀ (s : Nat → Act (Reg Nat)) (T : Nat), NoRace [] false 2 s T →
    ∀ j j' k addr addr', j < T → j' < T → Returns false 2 s j k addr → Returns false 2 s j' k addr' → addr = addr' := by
  intro h
  have := h (sched aba) 20 (noRace_of (by decide)) 10 19 3 103 203 (by omega) (by omega)
    ⟨0, fromStart, 103, [[(1, 101)]], fromStart_ok, ⟨_, rfl, rfl, _, _, _, rfl, .inr rfl⟩, rfl⟩
    ⟨0, fromStart, 203, [[(1, 101), (2, 102)]], fromStart_ok, ⟨_, rfl, rfl, _, _, _, rfl, .inr rfl⟩, rfl⟩
  omega

/-- Thread 1 begins to register a vtable and reads the pointer; thread 0 registers another one, and the vector that thread 1 was about to use is
released. -/
def raced : List (Act (Reg Nat)) :=
  [.start 0 (insertFn fromEnd 1 101), .copy 0, .make 0 10 true, .cas 0, .start 1 (insertFn fromEnd 2 102), .start 0 (insertFn fromEnd 3 103), .copy 0,
   .make 0 11 true, .cas 0, .copy 1]

/-- C32 does not hold for `VtVec` either: with concurrent registrations it may access released memory, because `AtomicArc::load` takes its handle after it has
read the pointer (sync.rs:867-876). -/
theorem C32_vec_refuted : ¬ ∀ (s : Nat → Act (Reg Nat)) (T : Nat), (exec [] true 2 s T).isSome = true := by
  intro h
  exact absurd (h (sched raced) 10) (by decide)

end Verif.Props.Registry
