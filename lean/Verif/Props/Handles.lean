import Verif.Alloc.Handles

/-! C91: containers drop their allocator exactly once, and free their blocks with it. -/
namespace Verif.Props.Handles
open Verif.Alloc.Handles

/-! ### Specifications -/

/-- How often an allocator is anywhere: owned by the program, in a container, in the prefix of a block, destroyed. -/
def places (w : World) (x : Nat) : Nat :=
  w.allocs.count x + (w.conts.filterMap (·.alloc)).count x + (w.heap.filterMap (·.slot)).count x + w.dropped.count x

/-- Every allocator that was made is in exactly one place, and no other is anywhere. -/
def Balanced (w : World) : Prop := ∀ x, places w x = if x ∈ w.created then 1 else 0

/-- Every block is reachable from a container. -/
def Owned (w : World) : Prop := ∀ b ∈ w.heap, ∃ c ∈ w.conts, c.ref = some b.addr

/-- The allocator of every block exists, and is not the program's. -/
def Alive (w : World) : Prop := ∀ b ∈ w.heap, b.by ∉ w.dropped ∧ b.by ∉ w.allocs

/-- What programs must not do; all of it is safe code. -/
def Fair (zsa : Bool) (w : World) : Op → Prop
  -- boxing a vector that has capacity but no elements
  | .toBoxed c => c.len = 0 → c.cap = 0
  -- pushing into a boxed slice without capacity
  | .tryPush c => c.ref ≠ none
  -- sharing a vector without capacity, unless allocators are zero-sized
  | .toArc c _ => c.cap = 0 → zsa = true
  -- making a vector from such a slice
  | .arcToVec c => ∀ b ∈ w.heap, c.ref = some b.addr → b.cap ≠ 0
  -- making a slice from an `Arc`
  | .fromArc _ => False
  -- a failure to reserve capacity for a `SingleOrVec` with one element
  | .sovReserve _ _ ans => ans ≠ none
  -- exchanging allocators
  | .swapAllocs _ _ => False
  | _ => True

/-- Such programs. -/
def FairRun (zsa : Bool) (w : World) : List Op → Prop
  | [] => True
  | op :: ops => Fair zsa w op ∧ ∀ w', step zsa w op = .done w' → FairRun zsa w' ops

/-! ### The invariant -/

def owns : Kind → Bool
  | .vec | .boxed | .single => true
  | _ => false
def strong : Kind → Bool
  | .arc | .arcSlice => true
  | _ => false
def isWeak : Kind → Bool
  | .weak | .weakSlice => true
  | _ => false

/-- The number of containers of some kinds with a pointer to `p`. -/
def num (k : Kind → Bool) (cs : List Cont) (p : Nat) : Nat := cs.countP (fun c => k c.kind && c.ref == some p)

/-- A block is owned by one container, or shared by those counted in its prefix. -/
def BlockOk (cs : List Cont) (b : Blk) : Prop :=
  (b.slot = none ∧ num owns cs b.addr = 1 ∧ num strong cs b.addr = 0 ∧ num isWeak cs b.addr = 0) ∨
  (b.slot = some b.by ∧ num owns cs b.addr = 0 ∧ b.strong = num strong cs b.addr ∧
    b.weak = num isWeak cs b.addr + (if num strong cs b.addr = 0 then 0 else 1) ∧ b.weak ≠ 0)

/-- A container is as its operations expect. -/
def ContOk (heap : List Blk) (c : Cont) : Prop :=
  match c.kind with
  | .vec => ∃ a, c.alloc = some a ∧ ((c.ref = none ∧ c.cap = 0 ∧ c.len = 0) ∨
      (∃ b ∈ heap, c.ref = some b.addr ∧ b.by = a ∧ c.cap ≠ 0))
  | .boxed => ∃ a, c.alloc = some a ∧ ((c.ref = none ∧ c.len = 0) ∨ (∃ b ∈ heap, c.ref = some b.addr ∧ b.by = a ∧ c.len ≠ 0 ∧ b.cap ≠ 0))
  | .single => ∃ a, c.alloc = some a ∧ c.ref = none
  | _ => c.alloc = none ∧ ∃ b ∈ heap, c.ref = some b.addr

structure Inv (w : World) : Prop where
  addrs : (w.heap.map (·.addr)).Nodup
  nodup : w.created.Nodup
  toks : ∀ x, w.created.count x = places w x
  blocks : ∀ b ∈ w.heap, BlockOk w.conts b
  conts : ∀ c ∈ w.conts, ContOk w.heap c

/-! ### Lists -/

theorem num_perm {k : Kind → Bool} {cs ds : List Cont} (h : cs.Perm ds) (p : Nat) : num k cs p = num k ds p := h.countP_eq _

theorem num_append (k : Kind → Bool) (cs ds : List Cont) (p : Nat) : num k (cs ++ ds) p = num k cs p + num k ds p := List.countP_append

theorem num_zero {k : Kind → Bool} {cs : List Cont} {p : Nat} (h : ∀ c ∈ cs, c.ref ≠ some p) : num k cs p = 0 := by
  rw [num, List.countP_eq_zero]
  intro c hc hh
  simp only [Bool.and_eq_true, beq_iff_eq] at hh
  exact h c hc hh.2

theorem BlockOk.perm {cs ds : List Cont} {b : Blk} (h : cs.Perm ds) (hb : BlockOk cs b) : BlockOk ds b := by
  unfold BlockOk at *
  rw [← num_perm h, ← num_perm h, ← num_perm h]
  exact hb

theorem ContOk.mono {h h' : List Blk} {c : Cont} (hc : ContOk h c)
    (hm : ∀ b ∈ h, c.ref = some b.addr → ∃ b' ∈ h', b'.addr = b.addr ∧ b'.by = b.by ∧ (c.kind = .boxed → b.cap = b'.cap)) : ContOk h' c := by
  unfold ContOk at *
  cases hk : c.kind <;> simp only [hk] at hc ⊢
  · obtain ⟨a, h1, h2⟩ := hc
    refine ⟨a, h1, h2.imp id ?_⟩
    rintro ⟨b, hb, hr, h3, h4⟩
    obtain ⟨b', hb', e1, e2, _⟩ := hm b hb hr
    exact ⟨b', hb', by rw [e1]; exact hr, by rw [e2]; exact h3, h4⟩
  · obtain ⟨a, h1, h2⟩ := hc
    refine ⟨a, h1, h2.imp id ?_⟩
    rintro ⟨b, hb, hr, h3, h4, h5⟩
    obtain ⟨b', hb', e1, e2, e3⟩ := hm b hb hr
    exact ⟨b', hb', by rw [e1]; exact hr, by rw [e2]; exact h3, h4, by rw [← e3 hk]; exact h5⟩
  · exact hc
  all_goals
    obtain ⟨h1, b, hb, hr⟩ := hc
    obtain ⟨b', hb', e1, _⟩ := hm b hb hr
    exact ⟨h1, b', hb', by rw [e1]; exact hr⟩

theorem ContOk.ref_mem {h : List Blk} {c : Cont} (hc : ContOk h c) {p : Nat} (hr : c.ref = some p) : ∃ b ∈ h, b.addr = p := by
  unfold ContOk at hc
  cases hk : c.kind <;> simp only [hk] at hc
  · obtain ⟨a, h1, ⟨h2, _⟩ | ⟨b, hb, h2, _⟩⟩ := hc
    · rw [h2] at hr; cases hr
    · exact ⟨b, hb, by rw [h2] at hr; exact Option.some.inj hr⟩
  · obtain ⟨a, h1, ⟨h2, _⟩ | ⟨b, hb, h2, _⟩⟩ := hc
    · rw [h2] at hr; cases hr
    · exact ⟨b, hb, by rw [h2] at hr; exact Option.some.inj hr⟩
  · obtain ⟨a, h1, h2⟩ := hc
    rw [h2] at hr; cases hr
  all_goals
    obtain ⟨h1, b, hb, h2⟩ := hc
    exact ⟨b, hb, by rw [h2] at hr; exact Option.some.inj hr⟩

theorem addr_inj {l : List Blk} (hn : (l.map (·.addr)).Nodup) {b c : Blk} (hb : b ∈ l) (hc : c ∈ l) (e : b.addr = c.addr) : b = c := by
  induction l with
  | nil => cases hb
  | cons d l ih =>
    simp only [List.map_cons, List.nodup_cons, List.mem_map, not_exists, not_and] at hn
    rcases List.mem_cons.mp hb with rfl | hb' <;> rcases List.mem_cons.mp hc with rfl | hc'
    · rfl
    · exact absurd e.symm (hn.1 c hc')
    · exact absurd e (hn.1 b hb')
    · exact ih hn.2 hb' hc'

theorem at_mem {w : World} {p : Nat} {b : Blk} (h : w.at p = some b) : b ∈ w.heap ∧ b.addr = p :=
  ⟨List.mem_of_find?_eq_some h, by simpa using List.find?_some h⟩

theorem at_eq {w : World} (hn : (w.heap.map (·.addr)).Nodup) {b : Blk} (hb : b ∈ w.heap) : w.at b.addr = some b := by
  cases h : w.at b.addr with
  | none =>
    unfold World.at at h
    rw [List.find?_eq_none] at h
    exact absurd (by simp) (h b hb)
  | some c =>
    obtain ⟨hc, e⟩ := at_mem h
    rw [addr_inj hn hc hb e]

theorem vacant_iff {w : World} {p : Nat} : w.vacant p = true ↔ ∀ b ∈ w.heap, b.addr ≠ p := by
  unfold World.vacant World.at
  rw [Option.isNone_iff_eq_none, List.find?_eq_none]
  simp

theorem nodup_of_map {α β : Type} (f : α → β) {l : List α} (h : (l.map f).Nodup) : l.Nodup := by
  induction l with
  | nil => exact List.nodup_nil
  | cons a l ih =>
    simp only [List.map_cons, List.nodup_cons, List.mem_map, not_exists, not_and] at h ⊢
    exact ⟨fun ha => h.1 a ha rfl, ih h.2⟩

theorem mem_erase {l : List Blk} (hn : (l.map (·.addr)).Nodup) {b c : Blk} : c ∈ l.erase b ↔ c ≠ b ∧ c ∈ l := (nodup_of_map _ hn).mem_erase_iff

theorem erase_addr {l : List Blk} (hn : (l.map (·.addr)).Nodup) {b c : Blk} (hb : b ∈ l) (hc : c ∈ l.erase b) : c.addr ≠ b.addr := by
  intro e
  have := (mem_erase hn).mp hc
  exact this.1 (addr_inj hn this.2 hb e)

theorem nodup_erase {l : List Blk} (hn : (l.map (·.addr)).Nodup) (b : Blk) : ((l.erase b).map (·.addr)).Nodup :=
  hn.sublist (List.Sublist.map _ List.erase_sublist)

theorem count_mem {l : List Nat} {v : Nat} (h : v ∈ l) (x : Nat) : l.count x = [v].count x + (l.erase v).count x := by
  have := (List.perm_cons_erase h).count_eq x
  rw [this, show v :: l.erase v = [v] ++ l.erase v from rfl, List.count_append]

theorem count_cons' (l : List Nat) (v x : Nat) : (v :: l).count x = [v].count x + l.count x := by
  rw [show v :: l = [v] ++ l from rfl, List.count_append]

theorem count_slot {h h' : List Blk} {b : Blk} (hp : h.Perm (b :: h')) (x : Nat) :
    (h.filterMap (·.slot)).count x = b.slot.toList.count x + (h'.filterMap (·.slot)).count x := by
  rw [(hp.filterMap _).count_eq x, List.filterMap_cons]
  cases b.slot with
  | none => simp
  | some v => simp only [Option.toList_some]; exact count_cons' _ _ _

theorem count_toks {cs xs ds : List Cont} (hp : cs.Perm (xs ++ ds)) (x : Nat) :
    (cs.filterMap (·.alloc)).count x = (xs.filterMap (·.alloc)).count x + (ds.filterMap (·.alloc)).count x := by
  rw [(hp.filterMap _).count_eq x, List.filterMap_append, List.count_append]

/-! ### Changes -/

/-- The allocators that `xs` and `b` had went to `ys` and `b'`, to the program or were destroyed; others are new. -/
def Moves (w w' : World) (xs ys : List Cont) (s s' : Option Nat) : Prop :=
  ∀ x, w'.created.count x + w.allocs.count x + (xs.filterMap (·.alloc)).count x + s.toList.count x + w.dropped.count x =
    w.created.count x + w'.allocs.count x + (ys.filterMap (·.alloc)).count x + s'.toList.count x + w'.dropped.count x

/-- A prefix is written, and containers with pointers to it are exchanged. -/
theorem Inv.write {w w' : World} (i : Inv w) {b b' : Blk} (hb : b ∈ w.heap) (ha : b'.addr = b.addr) (hby : b'.by = b.by) {xs ys cs : List Cont}
    (hp : w.conts.Perm (xs ++ cs)) (hp' : w'.conts.Perm (ys ++ cs)) (hh : w'.heap.Perm (b' :: w.heap.erase b))
    (hx : ∀ c ∈ xs ++ ys, ∀ p, c.ref = some p → p = b.addr) (hcr : w'.created.Nodup) (hm : Moves w w' xs ys b.slot b'.slot)
    (hok : BlockOk (xs ++ cs) b → BlockOk (ys ++ cs) b') (hcap : b.cap = b'.cap ∨ num owns cs b.addr = 0) (hys : ∀ y ∈ ys, ContOk (b' :: w.heap.erase b) y) :
    Inv w' := by
  have hperm : w.heap.Perm (b :: w.heap.erase b) := List.perm_cons_erase hb
  refine ⟨?_, hcr, ?_, ?_, ?_⟩
  · have h1 := (hh.map (·.addr)).nodup_iff
    rw [h1, List.map_cons, ha, ← List.map_cons (f := fun b : Blk => b.addr), ← (hperm.map (·.addr)).nodup_iff]
    exact i.addrs
  · intro x
    have h1 := i.toks x
    have h2 := hm x
    unfold places at h1 ⊢
    rw [count_slot hperm, count_toks hp] at h1
    rw [count_slot hh, count_toks hp']
    omega
  · intro c hc
    rcases List.mem_cons.mp (hh.mem_iff.mp hc) with rfl | hc
    · exact (hok ((i.blocks b hb).perm hp)).perm hp'.symm
    · have hne := erase_addr i.addrs hb hc
      have h1 := (i.blocks c (List.mem_of_mem_erase hc)).perm hp
      refine BlockOk.perm hp'.symm ?_
      have hz : ∀ k, num k xs c.addr = 0 ∧ num k ys c.addr = 0 := fun k =>
        ⟨num_zero (fun z hz hr => hne (hx z (List.mem_append_left _ hz) _ hr)), num_zero (fun z hz hr => hne (hx z (List.mem_append_right _ hz) _ hr))⟩
      unfold BlockOk at h1 ⊢
      simp only [num_append, hz] at h1 ⊢
      exact h1
  · intro c hc
    have hmem : ∀ d, d ∈ b' :: w.heap.erase b → d ∈ w'.heap := fun d hd => hh.mem_iff.mpr hd
    rcases List.mem_append.mp (hp'.mem_iff.mp hc) with hc | hc
    · exact (hys c hc).mono (fun d hd _ => ⟨d, hmem d hd, rfl, rfl, fun _ => rfl⟩)
    · refine (i.conts c (hp.mem_iff.mpr (List.mem_append_right _ hc))).mono ?_
      intro d hd hr
      by_cases e : d = b
      · subst e
        refine ⟨b', hmem _ (.head _), ha, hby, ?_⟩
        intro hk
        rcases hcap with h | h
        · exact h
        · exfalso
          rw [num, List.countP_eq_zero] at h
          exact h c hc (by simp [hk, owns, hr])
      · exact ⟨d, hmem d (.tail _ ((mem_erase i.addrs).mpr ⟨e, hd⟩)), rfl, rfl, fun _ => rfl⟩

/-- A block is allocated. -/
theorem Inv.insert {w w' : World} (i : Inv w) {b : Blk} (hv : w.vacant b.addr = true) {xs ys cs : List Cont} (hp : w.conts.Perm (xs ++ cs))
    (hp' : w'.conts.Perm (ys ++ cs)) (hh : w'.heap.Perm (b :: w.heap)) (hx : ∀ c ∈ xs, c.ref = none) (hy : ∀ c ∈ ys, c.ref = none ∨ c.ref = some b.addr)
    (hcr : w'.created.Nodup) (hm : Moves w w' xs ys none b.slot) (hok : BlockOk ys b) (hys : ∀ y ∈ ys, ContOk (b :: w.heap) y) : Inv w' := by
  have hfree : ∀ c ∈ w.conts, c.ref ≠ some b.addr := by
    intro c hc hr
    obtain ⟨d, hd, e⟩ := (i.conts c hc).ref_mem hr
    exact vacant_iff.mp hv d hd e
  refine ⟨?_, hcr, ?_, ?_, ?_⟩
  · rw [(hh.map (·.addr)).nodup_iff, List.map_cons, List.nodup_cons]
    refine ⟨?_, i.addrs⟩
    simp only [List.mem_map, not_exists, not_and]
    exact fun d hd e => vacant_iff.mp hv d hd e
  · intro x
    have h1 := i.toks x
    have h2 := hm x
    unfold places at h1 ⊢
    rw [count_toks hp] at h1
    rw [count_slot hh, count_toks hp']
    simp only [Option.toList_none, List.count_nil] at h2
    omega
  · intro c hc
    refine BlockOk.perm hp'.symm ?_
    rcases List.mem_cons.mp (hh.mem_iff.mp hc) with rfl | hc
    · have hz : ∀ k, num k cs c.addr = 0 := fun k => num_zero (fun z hz hr => hfree z (hp.mem_iff.mpr (List.mem_append_right _ hz)) hr)
      unfold BlockOk at hok ⊢
      simp only [num_append, hz, Nat.add_zero] at hok ⊢
      exact hok
    · have h1 := (i.blocks c hc).perm hp
      have hz : ∀ k, num k xs c.addr = 0 ∧ num k ys c.addr = 0 := fun k =>
        ⟨num_zero (fun z hz hr => by rw [hx z hz] at hr; cases hr), num_zero (fun z hz hr => by
          rcases hy z hz with h | h
          · rw [h] at hr; cases hr
          · rw [h] at hr
            exact vacant_iff.mp hv c hc (Option.some.inj hr).symm)⟩
      unfold BlockOk at h1 ⊢
      simp only [num_append, hz] at h1 ⊢
      exact h1
  · intro c hc
    have hmem : ∀ d, d ∈ b :: w.heap → d ∈ w'.heap := fun d hd => hh.mem_iff.mpr hd
    rcases List.mem_append.mp (hp'.mem_iff.mp hc) with hc | hc
    · exact (hys c hc).mono (fun d hd _ => ⟨d, hmem d hd, rfl, rfl, fun _ => rfl⟩)
    · exact (i.conts c (hp.mem_iff.mpr (List.mem_append_right _ hc))).mono (fun d hd _ => ⟨d, hmem d (.tail _ hd), rfl, rfl, fun _ => rfl⟩)

/-- A block is freed; no container but `xs` has pointers to it. -/
theorem Inv.remove {w w' : World} (i : Inv w) {b : Blk} (hb : b ∈ w.heap) {xs ys cs : List Cont} (hp : w.conts.Perm (xs ++ cs))
    (hp' : w'.conts.Perm (ys ++ cs)) (hh : w'.heap.Perm (w.heap.erase b)) (hx : ∀ c ∈ xs, ∀ p, c.ref = some p → p = b.addr) (hy : ∀ c ∈ ys, c.ref = none)
    (hcr : w'.created.Nodup) (hm : Moves w w' xs ys b.slot none) (hnone : ∀ c ∈ cs, c.ref ≠ some b.addr) (hys : ∀ y ∈ ys, ContOk [] y) : Inv w' := by
  have hperm : w.heap.Perm (b :: w.heap.erase b) := List.perm_cons_erase hb
  refine ⟨?_, hcr, ?_, ?_, ?_⟩
  · rw [(hh.map (·.addr)).nodup_iff]
    exact nodup_erase i.addrs b
  · intro x
    have h1 := i.toks x
    have h2 := hm x
    unfold places at h1 ⊢
    rw [count_slot hperm, count_toks hp] at h1
    rw [(hh.filterMap _).count_eq x, count_toks hp']
    simp only [Option.toList_none, List.count_nil] at h2
    omega
  · intro c hc
    have hc := hh.mem_iff.mp hc
    have hne := erase_addr i.addrs hb hc
    refine BlockOk.perm hp'.symm ?_
    have h1 := (i.blocks c (List.mem_of_mem_erase hc)).perm hp
    have hz : ∀ k, num k xs c.addr = 0 ∧ num k ys c.addr = 0 := fun k =>
      ⟨num_zero (fun z hz hr => hne (hx z hz _ hr)), num_zero (fun z hz hr => by rw [hy z hz] at hr; cases hr)⟩
    unfold BlockOk at h1 ⊢
    simp only [num_append, hz] at h1 ⊢
    exact h1
  · intro c hc
    rcases List.mem_append.mp (hp'.mem_iff.mp hc) with hc | hc
    · exact (hys c hc).mono (fun d hd _ => by cases hd)
    · refine (i.conts c (hp.mem_iff.mpr (List.mem_append_right _ hc))).mono ?_
      intro d hd hr
      refine ⟨d, hh.mem_iff.mpr ((mem_erase i.addrs).mpr ⟨?_, hd⟩), rfl, rfl, fun _ => rfl⟩
      rintro rfl
      exact hnone c hc hr

/-- Containers without blocks are exchanged. -/
theorem Inv.move {w w' : World} (i : Inv w) {xs ys cs : List Cont} (hp : w.conts.Perm (xs ++ cs)) (hp' : w'.conts.Perm (ys ++ cs))
    (hh : w'.heap = w.heap) (hx : ∀ c ∈ xs, c.ref = none) (hy : ∀ c ∈ ys, c.ref = none) (hcr : w'.created.Nodup) (hm : Moves w w' xs ys none none)
    (hys : ∀ y ∈ ys, ContOk [] y) : Inv w' := by
  refine ⟨by rw [hh]; exact i.addrs, hcr, ?_, ?_, ?_⟩
  · intro x
    have h1 := i.toks x
    have h2 := hm x
    unfold places at h1 ⊢
    rw [count_toks hp] at h1
    rw [hh, count_toks hp']
    omega
  · intro c hc
    rw [hh] at hc
    refine BlockOk.perm hp'.symm ?_
    have h1 := (i.blocks c hc).perm hp
    have hz : ∀ k, num k xs c.addr = 0 ∧ num k ys c.addr = 0 := fun k =>
      ⟨num_zero (fun z hz hr => by rw [hx z hz] at hr; cases hr), num_zero (fun z hz hr => by rw [hy z hz] at hr; cases hr)⟩
    unfold BlockOk at h1 ⊢
    simp only [num_append, hz] at h1 ⊢
    exact h1
  · intro c hc
    rw [hh]
    rcases List.mem_append.mp (hp'.mem_iff.mp hc) with hc | hc
    · exact (hys c hc).mono (fun d hd _ => by cases hd)
    · exact i.conts c (hp.mem_iff.mpr (List.mem_append_right _ hc))

/-! ### Containers and their blocks -/

theorem perm_erase {w : World} {c : Cont} (hc : c ∈ w.conts) : w.conts.Perm ([c] ++ w.conts.erase c) := List.perm_cons_erase hc

theorem num_cons (k : Kind → Bool) (c : Cont) (cs : List Cont) (p : Nat) :
    num k (c :: cs) p = (if k c.kind = true ∧ c.ref = some p then 1 else 0) + num k cs p := by
  rw [num, List.countP_cons, num, Nat.add_comm]
  congr 1
  simp

theorem num_none {cs : List Cont} {p : Nat} (h1 : num owns cs p = 0) (h2 : num strong cs p = 0) (h3 : num isWeak cs p = 0) :
    ∀ c ∈ cs, c.ref ≠ some p := by
  intro c hc hr
  simp only [num, List.countP_eq_zero] at h1 h2 h3
  have a := h1 c hc
  have b := h2 c hc
  have d := h3 c hc
  cases hk : c.kind <;> simp [hk, hr, owns, strong, isWeak] at a b d

/-- The owner of a block is the only container with a pointer to it. -/
theorem Inv.sole {w : World} (i : Inv w) {c : Cont} (hc : c ∈ w.conts) (hk : owns c.kind = true) {b : Blk} (hb : b ∈ w.heap) (hr : c.ref = some b.addr) :
    b.slot = none ∧ ∀ d ∈ w.conts.erase c, d.ref ≠ some b.addr := by
  have h := (i.blocks b hb).perm (perm_erase hc)
  unfold BlockOk at h
  simp only [List.singleton_append, num_cons, hk, hr, true_and] at h
  rcases h with ⟨h1, h2, h3, h4⟩ | ⟨_, h2, _⟩
  · refine ⟨h1, num_none ?_ ?_ ?_⟩
    · simp at h2; exact h2
    · omega
    · omega
  · simp at h2

theorem Inv.vec {w : World} (i : Inv w) {c : Cont} (hc : c ∈ w.conts) (hk : c.kind = .vec) :
    ∃ a, c.alloc = some a ∧ ((c.ref = none ∧ c.cap = 0 ∧ c.len = 0) ∨
      (∃ b ∈ w.heap, c.ref = some b.addr ∧ w.at b.addr = some b ∧ b.by = a ∧ c.cap ≠ 0 ∧ b.slot = none ∧
        ∀ d ∈ w.conts.erase c, d.ref ≠ some b.addr)) := by
  have h := i.conts c hc
  simp only [ContOk, hk] at h
  obtain ⟨a, h1, h2⟩ := h
  refine ⟨a, h1, h2.imp id ?_⟩
  rintro ⟨b, hb, hr, h3, h4⟩
  have h6 := i.sole hc (by rw [hk]; rfl) hb hr
  exact ⟨b, hb, hr, at_eq i.addrs hb, h3, h4, h6.1, h6.2⟩

theorem Inv.boxed {w : World} (i : Inv w) {c : Cont} (hc : c ∈ w.conts) (hk : c.kind = .boxed) :
    ∃ a, c.alloc = some a ∧ ((c.ref = none ∧ c.len = 0) ∨
      (∃ b ∈ w.heap, c.ref = some b.addr ∧ w.at b.addr = some b ∧ b.by = a ∧ c.len ≠ 0 ∧ b.cap ≠ 0 ∧ b.slot = none ∧
        ∀ d ∈ w.conts.erase c, d.ref ≠ some b.addr)) := by
  have h := i.conts c hc
  simp only [ContOk, hk] at h
  obtain ⟨a, h1, h2⟩ := h
  refine ⟨a, h1, h2.imp id ?_⟩
  rintro ⟨b, hb, hr, h3, h4, h5⟩
  have h6 := i.sole hc (by rw [hk]; rfl) hb hr
  exact ⟨b, hb, hr, at_eq i.addrs hb, h3, h4, h5, h6.1, h6.2⟩

theorem Inv.single {w : World} (i : Inv w) {c : Cont} (hc : c ∈ w.conts) (hk : c.kind = .single) : ∃ a, c.alloc = some a ∧ c.ref = none := by
  have h := i.conts c hc
  simpa only [ContOk, hk] using h

/-- A block with counters. -/
structure Counted (cs : List Cont) (b : Blk) : Prop where
  slot : b.slot = some b.by
  owns : num owns cs b.addr = 0
  strong : b.strong = num strong cs b.addr
  weak : b.weak = num isWeak cs b.addr + (if num Handles.strong cs b.addr = 0 then 0 else 1)
  pos : b.weak ≠ 0

theorem Inv.shared {w : World} (i : Inv w) {c : Cont} (hc : c ∈ w.conts) (hk : strong c.kind = true ∨ isWeak c.kind = true) :
    c.alloc = none ∧ ∃ b ∈ w.heap, c.ref = some b.addr ∧ w.at b.addr = some b ∧ Counted ([c] ++ w.conts.erase c) b := by
  have h := i.conts c hc
  have h1 : c.alloc = none ∧ ∃ b ∈ w.heap, c.ref = some b.addr := by
    unfold ContOk at h
    cases hk' : c.kind <;> simp only [hk', strong, isWeak, Bool.false_eq_true, or_self] at h hk <;> exact h
  obtain ⟨h1, b, hb, hr⟩ := h1
  refine ⟨h1, b, hb, hr, at_eq i.addrs hb, ?_⟩
  have h2 := (i.blocks b hb).perm (perm_erase hc)
  unfold BlockOk at h2
  rcases h2 with ⟨_, _, h3, h4⟩ | ⟨h3, h4, h5, h6, h7⟩
  · exfalso
    simp only [List.singleton_append, num_cons, hr, and_true] at h3 h4
    rcases hk with hk | hk
    · rw [if_pos hk] at h3; omega
    · rw [if_pos hk] at h4; omega
  · exact ⟨h3, h4, h5, h6, h7⟩

/-- What an outcome guarantees. -/
def Good : Out → Prop
  | .done w => Inv w
  | .ub => False
  | .invalid => True

theorem good_vacant {w : World} {q : Nat} {r : Out} (h : w.vacant q = true → Good r) : Good (w.ifVacant q r) := by
  unfold World.ifVacant
  split
  · exact h ‹_›
  · trivial

theorem free_eq {w : World} (i : Inv w) {b : Blk} (hb : b ∈ w.heap) (cs : List Cont) :
    World.free { w with conts := cs } b.by b.addr = some { w with conts := cs, heap := w.heap.erase b } := by
  unfold World.free
  rw [show World.at { w with conts := cs } b.addr = some b from at_eq (w := { w with conts := cs }) i.addrs hb]
  simp

theorem nodup_cons' {l : List Nat} {v : Nat} (h : l.Nodup) (hv : v ∉ l) : (v :: l).Nodup := List.nodup_cons.mpr ⟨hv, h⟩

/-- A new vector for an allocator. -/
theorem Inv.new {w : World} (i : Inv w) {a : Nat} (ha : a ∈ w.allocs) : Inv { w with allocs := w.allocs.erase a, conts := newVec a :: w.conts } :=
  i.move (xs := []) (ys := [newVec a]) (cs := w.conts) (.refl _) (.refl _) rfl (by simp) (by simp [newVec]) i.nodup
    (fun x => by have := count_mem ha x; simp only [newVec, List.filterMap_cons, List.filterMap_nil, List.count_nil, Option.toList_none]; omega)
    (by simp [ContOk, newVec])

/-- A vector without memory gets some. -/
theorem Inv.fill {w w' : World} (i : Inv w) {a q n l : Nat} {c : Cont} (hc : c ∈ w.conts) (ha : c.alloc = some a) (hr : c.ref = none) (hq : w.vacant q = true)
    (hn : n ≠ 0) (e : w' = (w.allocate a q n).swap c [⟨.vec, some a, some q, n, l⟩]) : Inv w' := by
  subst e
  refine i.insert (b := ⟨q, a, none, n, 1, 1⟩) hq (xs := [c]) (ys := [⟨.vec, some a, some q, n, l⟩]) (cs := w.conts.erase c) (perm_erase hc) (.refl _) (.refl _)
    (by simpa using hr) (by simp) i.nodup ?_ ?_ ?_
  · intro x
    simp [World.swap, World.allocate, ha]
  · left
    simp [num, owns, strong, isWeak]
  · simp [ContOk]; exact .inl hn

/-- The memory of a container is freed by its allocator. -/
theorem Inv.release {w : World} (i : Inv w) {a : Nat} {b : Blk} {c : Cont} (hc : c ∈ w.conts) (ha : c.alloc = some a) (hb : b ∈ w.heap) (hr : c.ref = some b.addr)
    (hs : b.slot = none) (ho : ∀ d ∈ w.conts.erase c, d.ref ≠ some b.addr) :
    Inv { w with heap := w.heap.erase b, conts := newVec a :: w.conts.erase c } := by
  refine i.remove hb (xs := [c]) (ys := [newVec a]) (cs := w.conts.erase c) (perm_erase hc) (.refl _) (.refl _) ?_ ?_ i.nodup ?_ ho ?_
  · intro d hd p hp
    rw [List.mem_singleton.mp hd, hr] at hp
    exact (Option.some.inj hp).symm
  · simp [newVec]
  · intro x
    simp [newVec, ha, hs]
  · simp [ContOk, newVec]

/-- A container without memory is destroyed. -/
theorem Inv.dropTok {w : World} (i : Inv w) {a : Nat} {c : Cont} (hc : c ∈ w.conts) (ha : c.alloc = some a) (hr : c.ref = none) :
    Inv ((w.swap c []).dropAlloc a) := by
  refine i.move (xs := [c]) (ys := []) (cs := w.conts.erase c) (perm_erase hc) (.refl _) rfl (by simpa using hr) (by simp) i.nodup ?_ (by simp)
  intro x
  have := count_cons' w.dropped a x
  simp only [World.swap, World.dropAlloc, List.filterMap_cons, ha, List.filterMap_nil, Option.toList_none, List.count_nil]
  omega

/-- An allocator is made and destroyed. -/
theorem Inv.spare {w : World} (i : Inv w) {a : Nat} (ha : a ∉ w.created) : Inv ({ w with created := a :: w.created }.dropAlloc a) := by
  refine i.move (xs := []) (ys := []) (cs := w.conts) (.refl _) (.refl _) rfl (by simp) (by simp) (nodup_cons' i.nodup ha) ?_ (by simp)
  intro x
  have := count_cons' w.dropped a x
  have := count_cons' w.created a x
  simp only [World.dropAlloc, List.filterMap_nil, Option.toList_none, List.count_nil]
  omega

theorem Inv.dropOwn {w : World} (i : Inv w) {a : Nat} (ha : a ∈ w.allocs) : Inv ({ w with allocs := w.allocs.erase a }.dropAlloc a) := by
  refine i.move (xs := []) (ys := []) (cs := w.conts) (.refl _) (.refl _) rfl (by simp) (by simp) i.nodup ?_ (by simp)
  intro x
  have := count_cons' w.dropped a x
  have := count_mem ha x
  simp only [World.dropAlloc, List.filterMap_nil, Option.toList_none, List.count_nil]
  omega

/-- A container with a block becomes another with the same block. -/
theorem Inv.relabel {w w' : World} (i : Inv w) {a : Nat} {b b' : Blk} {c c' : Cont} (hc : c ∈ w.conts) (hk : owns c.kind = true) (hk' : owns c'.kind = true)
    (ha : c.alloc = some a) (ha' : c'.alloc = some a) (hb : b ∈ w.heap) (hr : c.ref = some b.addr) (hr' : c'.ref = some b.addr)
    (hb' : b' = { b with cap := b'.cap }) (hh : w'.heap.Perm (b' :: w.heap.erase b)) (hcs : w'.conts = c' :: w.conts.erase c)
    (h3 : w'.allocs = w.allocs ∧ w'.created = w.created ∧ w'.dropped = w.dropped)
    (hok : ContOk (b' :: w.heap.erase b) c') : Inv w' := by
  have hb1 : b'.addr = b.addr := by rw [hb']
  have hb2 : b'.by = b.by := by rw [hb']
  have hb3 : b'.slot = b.slot := by rw [hb']
  clear hb'
  obtain ⟨hs, ho⟩ := i.sole hc hk hb hr
  refine i.write hb hb1 hb2 (xs := [c]) (ys := [c']) (cs := w.conts.erase c) (perm_erase hc) (by rw [hcs]; rfl) hh ?_ (by rw [h3.2.1]; exact i.nodup) ?_ ?_ ?_ ?_
  · intro d hd p hp
    simp only [List.cons_append, List.nil_append, List.mem_cons, List.not_mem_nil, or_false] at hd
    rcases hd with rfl | rfl
    · rw [hr] at hp; exact (Option.some.inj hp).symm
    · rw [hr'] at hp; exact (Option.some.inj hp).symm
  · intro x
    simp only [h3.1, h3.2.1, h3.2.2, hb3, List.filterMap_cons, ha, ha']
  · intro h
    have hns : strong c'.kind = false ∧ isWeak c'.kind = false := by
      cases h : c'.kind <;> rw [h] at hk' <;> first | exact ⟨rfl, rfl⟩ | cases hk'
    left
    have hz : ∀ k, num k (w.conts.erase c) b.addr = 0 := fun k => num_zero ho
    simp [num_cons, hb1, hb3, hs, hr', hk', hns, hz]
  · right
    exact num_zero ho
  · intro y hy
    rw [List.mem_singleton.mp hy]
    exact hok

/-- A counter of a shared block changes along with the containers. -/
theorem Inv.recount {w w' : World} (i : Inv w) {b b' : Blk} (hb : b ∈ w.heap) (hb1 : b'.addr = b.addr) (hb2 : b'.by = b.by) (hb3 : b'.slot = b.slot)
    (hb4 : b'.cap = b.cap) {xs ys cs : List Cont} (hp : w.conts.Perm (xs ++ cs)) (hp' : w'.conts.Perm (ys ++ cs)) (hh : w'.heap.Perm (b' :: w.heap.erase b))
    (h3 : w'.allocs = w.allocs ∧ w'.created = w.created ∧ w'.dropped = w.dropped)
    (hx : ∀ c ∈ xs ++ ys, c.ref = some b.addr ∧ c.alloc = none ∧ owns c.kind = false)
    (hs : Counted (xs ++ cs) b → Counted (ys ++ cs) b') (hc : Counted (xs ++ cs) b) : Inv w' := by
  have hz : ∀ l : List Cont, (∀ c ∈ l, c.alloc = none) → l.filterMap (·.alloc) = [] := by
    intro l hl
    rw [List.filterMap_eq_nil_iff]
    exact hl
  refine i.write hb hb1 hb2 hp hp' hh ?_ (by rw [h3.2.1]; exact i.nodup) ?_ ?_ (.inl hb4.symm) ?_
  · intro c hc p hr
    rw [(hx c hc).1] at hr
    exact (Option.some.inj hr).symm
  · intro x
    rw [hz xs (fun c hc => (hx c (List.mem_append_left _ hc)).2.1), hz ys (fun c hc => (hx c (List.mem_append_right _ hc)).2.1), hb3, h3.1, h3.2.1, h3.2.2]
  · intro _
    obtain ⟨h1, h2, h3, h4, h5⟩ := hs hc
    exact .inr ⟨h1, h2, h3, h4, h5⟩
  · intro y hy
    obtain ⟨h1, h2, h3⟩ := hx y (List.mem_append_right _ hy)
    unfold ContOk
    cases hk : y.kind <;> rw [hk] at h3 <;> first | exact ⟨h2, b', .head _, by rw [hb1]; exact h1⟩ | cases h3

theorem dropWeak_good {w : World} (i : Inv w) {c : Cont} (hc : c ∈ w.conts) (hk : isWeak c.kind = true) {p : Nat} (hr : c.ref = some p) :
    Good ((w.swap c []).dropWeak p) := by
  obtain ⟨ha, b, hb, hr', hat, hcnt⟩ := i.shared hc (.inr hk)
  rw [hr] at hr'
  obtain rfl := Option.some.inj hr'
  have hs : strong c.kind = false ∧ owns c.kind = false := by
    cases h : c.kind <;> rw [h] at hk <;> first | exact ⟨rfl, rfl⟩ | cases hk
  unfold World.dropWeak
  rw [show (w.swap c []).at b.addr = some b from hat]
  simp only
  obtain ⟨c1, c2, c3, c4, c5⟩ := hcnt
  simp only [List.singleton_append, num_cons, hr, hk, hs, and_true, Bool.false_eq_true, if_false, if_true, Nat.zero_add] at c2 c3 c4
  split
  · rename_i hw
    refine i.recount (b' := { b with weak := b.weak - 1 }) hb rfl rfl rfl rfl (xs := [c]) (ys := []) (cs := w.conts.erase c) (perm_erase hc) (.refl _) (.refl _)
      ⟨rfl, rfl, rfl⟩ ?_ ?_ (i.shared hc (.inr hk) |>.2 |> fun ⟨b2, hb2, hr2, _, h2⟩ => ?_)
    · intro d hd
      rw [List.append_nil, List.mem_singleton] at hd
      subst hd
      exact ⟨hr, ha, hs.2⟩
    · intro _
      refine ⟨c1, c2, c3, ?_, ?_⟩
      · simp only [List.nil_append]
        omega
      · simp only
        omega
    · have : b2 = b := addr_inj i.addrs hb2 hb (by rw [hr] at hr2; exact (Option.some.inj hr2).symm)
      subst this
      exact h2
  · rename_i hw
    rw [c1]
    simp only
    rw [show (w.swap c []).free b.by b.addr = _ from free_eq i hb ([] ++ w.conts.erase c)]
    simp only [World.orUb]
    have hw : b.weak = 1 := by omega
    refine i.remove hb (xs := [c]) (ys := []) (cs := w.conts.erase c) (perm_erase hc) (.refl _) (.refl _) ?_ (by simp) i.nodup ?_ ?_ (by simp)
    · intro d hd p hp
      rw [List.mem_singleton.mp hd, hr] at hp
      exact (Option.some.inj hp).symm
    · intro x
      have := count_cons' w.dropped b.by x
      simp only [World.dropAlloc, List.filterMap_cons, ha, List.filterMap_nil, c1, Option.toList_none, Option.toList_some, List.count_nil]
      omega
    · have : num strong (w.conts.erase c) b.addr = 0 := by
        by_cases h : num strong (w.conts.erase c) b.addr = 0
        · exact h
        · rw [if_neg h] at c4; omega
      exact num_none c2 this (by rw [if_pos this] at c4; omega)

theorem dropArc_good {w : World} (i : Inv w) {c : Cont} (hc : c ∈ w.conts) (hk : strong c.kind = true) {p : Nat} (hr : c.ref = some p) :
    Good ((w.swap c []).dropArc p) := by
  obtain ⟨ha, b, hb, hr', hat, hcnt⟩ := i.shared hc (.inl hk)
  rw [hr] at hr'
  obtain rfl := Option.some.inj hr'
  have hs : isWeak c.kind = false ∧ owns c.kind = false := by
    cases h : c.kind <;> rw [h] at hk <;> first | exact ⟨rfl, rfl⟩ | cases hk
  unfold World.dropArc
  rw [show (w.swap c []).at b.addr = some b from hat]
  simp only
  have hcnt' := hcnt
  obtain ⟨c1, c2, c3, c4, c5⟩ := hcnt
  simp only [List.singleton_append, num_cons, hr, hk, hs, and_true, Bool.false_eq_true, if_false, if_true, Nat.zero_add] at c2 c3 c4
  rw [if_neg (by omega)] at c4
  split
  · rename_i hw
    refine i.recount (b' := { b with strong := b.strong - 1 }) hb rfl rfl rfl rfl (xs := [c]) (ys := []) (cs := w.conts.erase c) (perm_erase hc) (.refl _)
      (.refl _) ⟨rfl, rfl, rfl⟩ ?_ ?_ hcnt'
    · intro d hd
      rw [List.append_nil, List.mem_singleton] at hd
      subst hd
      exact ⟨hr, ha, hs.2⟩
    · intro _
      refine ⟨c1, c2, ?_, ?_, c5⟩
      · simp only [List.nil_append]
        omega
      · simp only [List.nil_append]
        rw [if_neg (by omega)]
        omega
  · rename_i hw
    have hw : b.strong = 1 := by omega
    let d : Cont := ⟨.weak, none, some b.addr, 0, 0⟩
    let w2 : World := { w with heap := { b with strong := b.strong - 1 } :: w.heap.erase b, conts := d :: w.conts.erase c }
    have i2 : Inv w2 := by
      refine i.recount (b' := { b with strong := b.strong - 1 }) hb rfl rfl rfl rfl (xs := [c]) (ys := [d]) (cs := w.conts.erase c) (perm_erase hc) (.refl _)
        (.refl _) ⟨rfl, rfl, rfl⟩ ?_ ?_ hcnt'
      · intro e he
        simp only [List.cons_append, List.nil_append, List.mem_cons, List.not_mem_nil, or_false] at he
        rcases he with rfl | rfl
        · exact ⟨hr, ha, hs.2⟩
        · exact ⟨rfl, rfl, rfl⟩
      · intro _
        have h0 : num strong (w.conts.erase c) b.addr = 0 := by omega
        refine ⟨c1, ?_, ?_, ?_, c5⟩
        · simp only [List.singleton_append, num_cons, d, owns, Bool.false_eq_true, false_and, if_false]
          omega
        · simp only [List.singleton_append, num_cons, d, strong, Bool.false_eq_true, false_and, if_false]
          omega
        · simp only [List.singleton_append, num_cons, d, strong, isWeak, Bool.false_eq_true, false_and, if_false, true_and, if_true, h0]
          omega
    have := dropWeak_good i2 (c := d) (.head _) rfl (p := b.addr) rfl
    rw [show w2.swap d [] = (w.swap c []).write b { b with strong := b.strong - 1 } by
      simp [w2, World.swap, World.write]] at this
    exact this

/-- A vector becomes a shared slice. -/
theorem Inv.share {w : World} (i : Inv w) {a n : Nat} {b : Blk} {c c' : Cont} (hc : c ∈ w.conts) (hk : owns c.kind = true) (ha : c.alloc = some a) (hb : b ∈ w.heap)
    (hby : b.by = a) (hr : c.ref = some b.addr) (hk' : strong c'.kind = true) (ha' : c'.alloc = none) (hr' : c'.ref = some b.addr) :
    Inv ((w.write b { b with slot := some a, cap := n, strong := 1, weak := 1 }).swap c [c']) := by
  obtain ⟨hs, ho⟩ := i.sole hc hk hb hr
  have hz : ∀ k, num k (w.conts.erase c) b.addr = 0 := fun k => num_zero ho
  have hs' : isWeak c'.kind = false ∧ owns c'.kind = false := by
    cases h : c'.kind <;> rw [h] at hk' <;> first | exact ⟨rfl, rfl⟩ | cases hk'
  refine i.write (b' := { b with slot := some a, cap := n, strong := 1, weak := 1 }) hb rfl rfl (xs := [c]) (ys := [c']) (cs := w.conts.erase c)
    (perm_erase hc) (.refl _) (.refl _) ?_ i.nodup ?_ ?_ (.inr (hz _)) ?_
  · intro d hd p hp
    simp only [List.cons_append, List.nil_append, List.mem_cons, List.not_mem_nil, or_false] at hd
    rcases hd with rfl | rfl
    · rw [hr] at hp; exact (Option.some.inj hp).symm
    · rw [hr'] at hp; exact (Option.some.inj hp).symm
  · intro x
    simp only [World.swap, World.write, List.filterMap_cons, ha, ha', List.filterMap_nil, hs, Option.toList_none, Option.toList_some, List.count_nil]
    omega
  · intro _
    right
    simp [num_cons, hz, hs', hk', hr', hby]
  · intro y hy
    rw [List.mem_singleton.mp hy]
    unfold ContOk
    cases h : c'.kind <;> rw [h] at hk' <;> first | exact ⟨ha', _, .head _, hr'⟩ | cases hk'

/-- A shared slice with one owner becomes a vector. -/
theorem Inv.unshare {w : World} (i : Inv w) {b : Blk} {c : Cont} (hc : c ∈ w.conts) (hk : c.kind = .arcSlice) (hb : b ∈ w.heap) (hr : c.ref = some b.addr)
    (hu : b.strong = 1 ∧ b.weak = 1) (hn : b.cap ≠ 0) :
    b.slot = some b.by ∧ Inv ((w.write b { b with slot := none }).swap c [⟨.vec, some b.by, c.ref, b.cap, c.len⟩]) := by
  obtain ⟨ha, b2, hb2, hr2, hat, c1, c2, c3, c4, c5⟩ := i.shared hc (.inl (by rw [hk]; rfl))
  obtain rfl : b2 = b := addr_inj i.addrs hb2 hb (by rw [hr] at hr2; exact (Option.some.inj hr2).symm)
  refine ⟨c1, ?_⟩
  simp only [List.singleton_append, num_cons, hr, hk, strong, isWeak, owns, and_true, Bool.false_eq_true, if_false, if_true, Nat.zero_add] at c2 c3 c4
  rw [if_neg (by omega)] at c4
  refine i.write (b' := { b2 with slot := none }) hb rfl rfl (xs := [c]) (ys := [⟨.vec, some b2.by, c.ref, b2.cap, c.len⟩]) (cs := w.conts.erase c)
    (perm_erase hc) (.refl _) (.refl _) ?_ i.nodup ?_ ?_ (.inr c2) ?_
  · intro d hd p hp
    simp only [List.cons_append, List.nil_append, List.mem_cons, List.not_mem_nil, or_false] at hd
    rcases hd with rfl | rfl
    · rw [hr] at hp; exact (Option.some.inj hp).symm
    · rw [hr] at hp; exact (Option.some.inj hp).symm
  · intro x
    simp only [World.swap, World.write, List.filterMap_cons, ha, List.filterMap_nil, c1, Option.toList_none, Option.toList_some, List.count_nil]
    omega
  · intro _
    left
    simp only [List.singleton_append, num_cons, hr, owns, strong, isWeak, Bool.false_eq_true, false_and, if_false, true_and, if_true]
    exact ⟨by omega, by omega, by omega⟩
  · intro y hy
    rw [List.mem_singleton.mp hy]
    exact ⟨_, rfl, .inr ⟨_, .head _, hr, rfl, hn⟩⟩

/-! ### Operations -/

/-- A shared container is copied, or made from one. -/
theorem Inv.copy {w : World} (i : Inv w) {c d : Cont} (hc : c ∈ w.conts) (hk : strong c.kind = true ∨ isWeak c.kind = true) {b b' : Blk} (hb : b ∈ w.heap)
    (hr : c.ref = some b.addr) (hd : d.ref = c.ref ∧ d.alloc = c.alloc) (hd' : (strong d.kind = true ∧ b.strong ≠ 0 ∧ b' = { b with strong := b.strong + 1 }) ∨
      (isWeak d.kind = true ∧ b' = { b with weak := b.weak + 1 })) :
    Inv { w.write b b' with conts := d :: w.conts } := by
  obtain ⟨ha, b2, hb2, hr2, hat, hcnt⟩ := i.shared hc hk
  obtain rfl : b2 = b := addr_inj i.addrs hb2 hb (by rw [hr] at hr2; exact (Option.some.inj hr2).symm)
  have hcnt : Counted ([] ++ w.conts) b2 := by
    obtain ⟨c1, c2, c3, c4, c5⟩ := hcnt
    have hp := perm_erase hc
    rw [← num_perm hp] at c2 c3 c4
    rw [← num_perm hp] at c4
    exact ⟨c1, c2, c3, c4, c5⟩
  have e : b'.addr = b2.addr ∧ b'.by = b2.by ∧ b'.slot = b2.slot ∧ b'.cap = b2.cap := by
    rcases hd' with ⟨_, _, rfl⟩ | ⟨_, rfl⟩ <;> exact ⟨rfl, rfl, rfl, rfl⟩
  have ho : owns d.kind = false := by
    rcases hd' with ⟨h, _⟩ | ⟨h, _⟩ <;> cases hk : d.kind <;> rw [hk] at h <;> first | rfl | cases h
  refine i.recount hb e.1 e.2.1 e.2.2.1 e.2.2.2 (xs := []) (ys := [d]) (cs := w.conts) (.refl _) (.refl _) (.refl _) ⟨rfl, rfl, rfl⟩ ?_ ?_ hcnt
  · intro y hy
    rw [List.nil_append, List.mem_singleton] at hy
    subst hy
    exact ⟨by rw [hd.1]; exact hr, by rw [hd.2]; exact ha, ho⟩
  · rintro ⟨c1, c2, c3, c4, c5⟩
    simp only [List.nil_append] at c2 c3 c4
    rcases hd' with ⟨h, h0, rfl⟩ | ⟨h, rfl⟩
    · have hw : isWeak d.kind = false := by cases hk : d.kind <;> rw [hk] at h <;> first | rfl | cases h
      rw [if_neg (by omega)] at c4
      refine ⟨c1, ?_, ?_, ?_, c5⟩
      · simp only [List.singleton_append, num_cons, ho, Bool.false_eq_true, false_and, if_false]; omega
      · simp only [List.singleton_append, num_cons, h, hd.1, hr, and_self, if_true]; omega
      · simp only [List.singleton_append, num_cons, h, hw, hd.1, hr, and_self, if_true, Bool.false_eq_true, false_and, if_false]
        rw [if_neg (by omega)]
        omega
    · have hw : strong d.kind = false := by cases hk : d.kind <;> rw [hk] at h <;> first | rfl | cases h
      refine ⟨c1, ?_, ?_, ?_, ?_⟩
      · simp only [List.singleton_append, num_cons, ho, Bool.false_eq_true, false_and, if_false]; omega
      · simp only [List.singleton_append, num_cons, hw, Bool.false_eq_true, false_and, if_false]; omega
      · simp only [List.singleton_append, num_cons, h, hw, hd.1, hr, and_self, if_true, Bool.false_eq_true, false_and, if_false, Nat.zero_add]
        omega
      · simp only; omega

theorem grow_good {w : World} (i : Inv w) {c : Cont} (hc : c ∈ w.conts) (hk : c.kind = .vec) {a n q : Nat} (ha : c.alloc = some a) (hn : c.len + n ≠ 0) :
    Good (w.grow c a n q) := by
  obtain ⟨a', ha', h⟩ := i.vec hc hk
  rw [ha] at ha'
  obtain rfl := Option.some.inj ha'
  have e : ({ c with ref := some q, cap := c.len + n } : Cont) = ⟨.vec, some a, some q, c.len + n, c.len⟩ := by rw [← hk, ← ha]
  unfold World.grow
  simp only [e]
  rcases h with ⟨h1, h2, h3⟩ | ⟨b, hb, h1, h2, rfl, h4, h5, h6⟩
  · rw [if_neg (by omega)]
    exact good_vacant fun hq => i.fill hc ha h1 hq hn rfl
  · rw [if_pos h4, h1]
    simp only
    rw [show w.free b.by b.addr = _ from free_eq i hb w.conts]
    simp only [World.orUb]
    refine good_vacant fun hq => ?_
    have i2 := i.release hc ha hb h1 h5 h6
    refine i2.fill (c := newVec b.by) (a := b.by) (q := q) (n := c.len + n) (l := c.len) (.head _) rfl rfl hq hn ?_
    simp [World.swap, World.allocate]

theorem Inv.newBox {w w' : World} (i : Inv w) {a q : Nat} (hq : w.vacant q = true) (hh : w'.heap = ⟨q, a, some a, 1, 1, 1⟩ :: w.heap)
    (hcs : w'.conts = ⟨.arc, none, some q, 0, 1⟩ :: w.conts) (hd : w'.dropped = w.dropped) (hcr : w'.created.Nodup)
    (hm : ∀ x, w'.created.count x + w.allocs.count x = w.created.count x + w'.allocs.count x + [a].count x) : Inv w' := by
  refine i.insert (b := ⟨q, a, some a, 1, 1, 1⟩) hq (xs := []) (ys := [⟨.arc, none, some q, 0, 1⟩]) (cs := w.conts) (.refl _) (by rw [hcs]; rfl) (by rw [hh])
    (by simp) (by simp) hcr ?_ ?_ ?_
  · intro x
    have := hm x
    simp only [List.filterMap_nil, List.filterMap_cons, List.count_nil, Option.toList_none, Option.toList_some, hd]
    omega
  · right
    simp [num, owns, strong, isWeak]
  · simp [ContOk]

theorem step_good {zsa : Bool} {w : World} (i : Inv w) {op : Op} (hf : Fair zsa w op) : Good (step zsa w op) := by
  cases op with
  | create a =>
    simp only [step]
    split
    · trivial
    · rename_i h
      refine i.move (xs := []) (ys := []) (cs := w.conts) (.refl _) (.refl _) rfl (by simp) (by simp) (nodup_cons' i.nodup h) ?_ (by simp)
      intro x
      have := count_cons' w.allocs a x
      have := count_cons' w.created a x
      simp only [List.filterMap_nil, Option.toList_none, List.count_nil]
      omega
  | dropAlloc a =>
    simp only [step]
    split
    · exact i.dropOwn ‹_›
    · trivial
  | newIn a =>
    simp only [step]
    split
    · exact i.new ‹_›
    · trivial
  | withCapacity a n ans tries =>
    simp only [step]
    split
    · rename_i h
      split
      · exact i.new h
      · rename_i hn
        cases ans with
        | some q =>
          refine good_vacant fun hq => ?_
          refine (i.new h).fill (c := newVec a) (a := a) (q := q) (n := n) (l := 0) (.head _) rfl rfl hq hn ?_
          simp [World.swap, World.allocate]
        | none =>
          simp only
          split
          · exact i
          · exact i.dropOwn h
    · trivial
  | reserve c n ans =>
    simp only [step]
    split
    · rename_i h
      cases ha : c.alloc with
      | none => trivial
      | some a =>
        simp only
        split
        · exact i
        · cases ans with
          | none => exact i
          | some q => exact grow_good i h.1 h.2 ha (by omega)
    · trivial
  | setLen c n =>
    simp only [step]
    split
    · rename_i h
      obtain ⟨a, ha, ⟨h1, h2, h3⟩ | ⟨b, hb, h1, h2, h3, h4, h5, h6⟩⟩ := i.vec h.1 h.2.1
      · refine i.move (xs := [c]) (ys := [{ c with len := n }]) (cs := w.conts.erase c) (perm_erase h.1) (.refl _) rfl (by simpa using h1) (by simpa using h1)
          i.nodup ?_ ?_
        · intro x; simp [World.swap, ha]
        · simp [ContOk, h.2.1, ha, h1]; omega
      · refine i.relabel (a := a) (b := b) (b' := b) (c := c) (c' := { c with len := n }) h.1 (by rw [h.2.1]; rfl) (by simp only [h.2.1]; rfl) ha ha hb h1 h1 rfl ?_ rfl
          ⟨rfl, rfl, rfl⟩ ?_
        · exact List.perm_cons_erase hb
        · simp only [ContOk, h.2.1]
          exact ⟨a, ha, .inr ⟨b, .head _, h1, h3, h4⟩⟩
    · trivial
  | cloneVec c a ans =>
    simp only [step]
    split
    · rename_i h
      have i2 : Inv { w with created := a :: w.created, conts := newVec a :: w.conts } := by
        refine i.move (xs := []) (ys := [newVec a]) (cs := w.conts) (.refl _) (.refl _) rfl (by simp) (by simp [newVec]) (nodup_cons' i.nodup h.2.2) ?_
          (by simp [ContOk, newVec])
        intro x
        have := count_cons' w.created a x
        simp only [newVec, List.filterMap_cons, List.filterMap_nil, List.count_nil, Option.toList_none]
        omega
      split
      · exact i2
      · rename_i hl
        cases ans with
        | some q =>
          refine good_vacant fun hq => ?_
          refine i2.fill (c := newVec a) (a := a) (q := q) (n := c.len) (l := c.len) (.head _) rfl rfl hq hl ?_
          simp [World.swap, World.allocate]
        | none => exact i.spare h.2.2
    · trivial
  | toBoxed c =>
    simp only [step]
    split
    · rename_i h
      obtain ⟨a, ha, ⟨h1, h2, h3⟩ | ⟨b, hb, h1, h2, h3, h4, h5, h6⟩⟩ := i.vec h.1 h.2
      · rw [if_neg (by omega)]
        refine i.move (xs := [c]) (ys := [⟨.boxed, c.alloc, c.ref, 0, c.len⟩]) (cs := w.conts.erase c) (perm_erase h.1) (.refl _) rfl (by simpa using h1)
          (by simpa using h1) i.nodup ?_ ?_
        · intro x; simp [World.swap, ha]
        · simp [ContOk, ha, h1, h3]
      · rw [if_pos h4, h1, Option.bind_some, h2]
        have hl : c.len ≠ 0 := fun e => h4 (hf e)
        refine i.relabel (a := a) (b := b) (b' := { b with cap := c.cap }) (c := c) (c' := ⟨.boxed, c.alloc, some b.addr, 0, c.len⟩) h.1 (by rw [h.2]; rfl) rfl ha ha hb h1 rfl
          rfl (.refl _) rfl ⟨rfl, rfl, rfl⟩ ?_
        exact ⟨a, ha, .inr ⟨_, .head _, rfl, h3, hl, h4⟩⟩
    · trivial
  | toVec c =>
    simp only [step]
    split
    · rename_i h
      obtain ⟨a, ha, ⟨h1, h3⟩ | ⟨b, hb, h1, h2, h3, h4, h5, h6⟩⟩ := i.boxed h.1 h.2
      · rw [if_pos h3]
        refine i.move (xs := [c]) (ys := [⟨.vec, c.alloc, c.ref, 0, c.len⟩]) (cs := w.conts.erase c) (perm_erase h.1) (.refl _) rfl (by simpa using h1)
          (by simpa using h1) i.nodup ?_ ?_
        · intro x; simp [World.swap, ha]
        · simp [ContOk, ha, h1, h3]
      · rw [if_neg h4, h1, Option.bind_some, h2]
        refine i.relabel (a := a) (b := b) (b' := b) (c := c) (c' := ⟨.vec, c.alloc, some b.addr, b.cap, c.len⟩) h.1 (by rw [h.2]; rfl) rfl ha ha hb h1 rfl
          rfl (List.perm_cons_erase hb) rfl ⟨rfl, rfl, rfl⟩ ?_
        exact ⟨a, ha, .inr ⟨_, .head _, rfl, h3, h5⟩⟩
    · trivial
  | tryPush c =>
    simp only [step]
    split
    · rename_i h
      obtain ⟨a, ha, ⟨h1, h3⟩ | ⟨b, hb, h1, h2, h3, h4, h5, h6⟩⟩ := i.boxed h.1 h.2
      · exact absurd h1 hf
      · rw [h1, Option.bind_some, h2]
        simp only
        split
        · refine i.relabel (a := a) (b := b) (b' := b) (c := c) (c' := { c with len := c.len + 1 }) h.1 (by rw [h.2]; rfl) (by simp only [h.2]; rfl) ha ha hb h1 h1
            rfl (List.perm_cons_erase hb) (by rw [← h1]; rfl) ⟨rfl, rfl, rfl⟩ ?_
          simp only [ContOk, h.2]
          exact ⟨a, ha, .inr ⟨_, .head _, h1, h3, by omega, h5⟩⟩
        · exact i
    · trivial
  | toArc c ans =>
    simp only [step]
    split
    · rename_i h
      obtain ⟨a, ha, h0⟩ := i.vec h.1 h.2
      rw [ha]
      simp only
      rcases h0 with ⟨h1, h2, h3⟩ | ⟨b, hb, h1, h2, h3, h4, h5, h6⟩
      · rw [if_neg (by omega)]
        cases ans with
        | none => exact i.dropTok h.1 ha h1
        | some q =>
          refine good_vacant fun hq => ?_
          rw [hf h2]
          simp only [if_true]
          refine i.insert (b := ⟨q, a, some a, 0, 1, 1⟩) hq (xs := [c]) (ys := [⟨.arcSlice, none, some q, 0, c.len⟩]) (cs := w.conts.erase c) (perm_erase h.1)
            (.refl _) (by simp [World.write, World.swap, World.allocate]) (by simpa using h1) (by simp) i.nodup ?_ ?_ ?_
          · intro x
            simp [World.write, World.swap, World.allocate, ha]
          · right
            simp [num, owns, strong, isWeak]
          · simp [ContOk]
      · rw [if_pos h4, h1, Option.bind_some, h2]
        exact i.share h.1 (by rw [h.2]; rfl) ha hb h3 h1 rfl rfl rfl
    · trivial
  | arcToVec c =>
    simp only [step]
    split
    · rename_i h
      obtain ⟨ha, b, hb, hr, hat, _⟩ := i.shared h.1 (.inl (by rw [h.2]; rfl))
      rw [hr, Option.bind_some, hat]
      simp only
      split
      · rename_i hu
        have h2 := i.unshare h.1 h.2 hb hr hu (hf b hb hr)
        rw [h2.1]
        rw [hr] at h2
        exact h2.2
      · exact i
    · trivial
  | newArc a ans tries =>
    simp only [step]
    split
    · rename_i h
      cases ans with
      | some q =>
        refine good_vacant fun hq => ?_
        refine i.newBox hq rfl rfl rfl i.nodup ?_
        intro x
        have := count_mem h x
        simp only
        omega
      | none =>
        simp only
        split
        · exact i
        · exact i.dropOwn h
    · trivial
  | makeMut c a ans =>
    simp only [step]
    split
    · rename_i h
      have hk : strong c.kind = true := by rw [h.2]; rfl
      obtain ⟨ha, b, hb, hr, hat, hcnt⟩ := i.shared h.1 (.inl hk)
      rw [hr]
      simp only [hat]
      split
      · exact i
      · split
        · trivial
        · rename_i hcr
          rw [hcnt.slot]
          cases ans with
          | none => exact i.spare hcr
          | some q =>
            refine good_vacant fun hq => ?_
            let n : Cont := ⟨.arc, none, some q, 0, 1⟩
            have i2 : Inv { w with heap := ⟨q, a, some a, 1, 1, 1⟩ :: w.heap, created := a :: w.created, conts := n :: w.conts } := by
              refine i.newBox hq rfl rfl rfl (nodup_cons' i.nodup hcr) ?_
              intro x
              have := count_cons' w.created a x
              simp only
              omega
            have hne : n ≠ c := by
              rintro rfl
              exact vacant_iff.mp hq b hb (Option.some.inj hr).symm
            have := dropArc_good i2 (c := c) (.tail _ h.1) hk hr
            rw [show World.swap _ c [] = _ from by
              unfold World.swap
              simp only [List.nil_append]
              rw [List.erase_cons_tail (by simpa using hne)]] at this
            exact this
    · trivial
  | intoInner c =>
    simp only [step]
    split
    · rename_i h
      have hk : strong c.kind = true := by rw [h.2]; rfl
      obtain ⟨ha, b, hb, hr, hat, hcnt⟩ := i.shared h.1 (.inl hk)
      rw [hr]
      simp only [hat]
      split
      · rename_i hu
        obtain ⟨c1, c2, c3, c4, c5⟩ := hcnt
        simp only [List.singleton_append, num_cons, hr, h.2, strong, isWeak, owns, and_true, Bool.false_eq_true, if_false, if_true, Nat.zero_add] at c2 c3 c4
        rw [if_neg (by omega)] at c4
        unfold World.dropWeak
        rw [show (w.swap c []).at b.addr = some b from hat]
        simp only
        rw [if_neg (by omega), c1]
        simp only
        rw [show (w.swap c []).free b.by b.addr = _ from free_eq i hb ([] ++ w.conts.erase c)]
        simp only [World.orUb]
        refine i.remove hb (xs := [c]) (ys := []) (cs := w.conts.erase c) (perm_erase h.1) (.refl _) (.refl _) ?_ (by simp) i.nodup ?_ ?_ (by simp)
        · intro d hd p hp
          rw [List.mem_singleton.mp hd, hr] at hp
          exact (Option.some.inj hp).symm
        · intro x
          have := count_cons' w.dropped b.by x
          simp only [World.dropAlloc, List.filterMap_cons, ha, List.filterMap_nil, c1, Option.toList_none, Option.toList_some, List.count_nil]
          omega
        · exact num_none c2 (by omega) (by omega)
      · exact i
    · trivial
  | fromArc c => exact hf.elim
  | clone c =>
    simp only [step]
    split
    · rename_i h
      cases hk : c.kind
      all_goals first | trivial | skip
      all_goals
        obtain ⟨ha, b, hb, hr, hat, hcnt⟩ := i.shared h (by rw [hk]; first | exact .inl rfl | exact .inr rfl)
        rw [hr, Option.bind_some, hat]
        simp only
      · refine i.copy h (.inl (by rw [hk]; rfl)) hb hr ⟨rfl, rfl⟩ (.inl ⟨by rw [hk]; rfl, ?_, rfl⟩)
        rw [hcnt.strong, List.singleton_append, num_cons, if_pos ⟨by rw [hk]; rfl, hr⟩]
        omega
      · refine i.copy h (.inl (by rw [hk]; rfl)) hb hr ⟨rfl, rfl⟩ (.inl ⟨by rw [hk]; rfl, ?_, rfl⟩)
        rw [hcnt.strong, List.singleton_append, num_cons, if_pos ⟨by rw [hk]; rfl, hr⟩]
        omega
      · exact i.copy h (.inr (by rw [hk]; rfl)) hb hr ⟨rfl, rfl⟩ (.inr ⟨by rw [hk]; rfl, rfl⟩)
      · exact i.copy h (.inr (by rw [hk]; rfl)) hb hr ⟨rfl, rfl⟩ (.inr ⟨by rw [hk]; rfl, rfl⟩)
    · trivial
  | downgrade c =>
    simp only [step]
    split
    · rename_i h
      cases hk : c.kind
      all_goals first | trivial | skip
      all_goals
        obtain ⟨ha, b, hb, hr, hat, hcnt⟩ := i.shared h (by rw [hk]; first | exact .inl rfl | exact .inr rfl)
        rw [hr, Option.bind_some, hat]
        simp only
        try rw [← hr]
        first
        | trivial
        | exact i.copy h (.inl (by rw [hk]; rfl)) hb hr ⟨rfl, rfl⟩ (.inr ⟨rfl, rfl⟩)
    · trivial
  | upgrade c =>
    simp only [step]
    split
    · rename_i h
      cases hk : c.kind
      all_goals first | trivial | skip
      all_goals
        obtain ⟨ha, b, hb, hr, hat, hcnt⟩ := i.shared h (by rw [hk]; first | exact .inl rfl | exact .inr rfl)
        rw [hr, Option.bind_some, hat]
        simp only
        try rw [← hr]
        first
        | trivial
        | skip
      all_goals
        split
        · exact i
        · rename_i hs
          exact i.copy h (.inr (by rw [hk]; rfl)) hb hr ⟨rfl, rfl⟩ (.inl ⟨rfl, hs, rfl⟩)
    · trivial
  | drop c =>
    simp only [step]
    split
    · rename_i h
      cases hk : c.kind
      · obtain ⟨a, ha, ⟨h1, h2, h3⟩ | ⟨b, hb, h1, h2, rfl, h4, h5, h6⟩⟩ := i.vec h hk
        · rw [ha]
          simp only
          rw [if_neg (by omega)]
          exact i.dropTok h ha h1
        · rw [ha, h1]
          simp only
          rw [if_pos h4, Option.bind_some, show (w.swap c []).free b.by b.addr = _ from free_eq i hb ([] ++ w.conts.erase c)]
          have := (i.release h ha hb h1 h5 h6).dropTok (c := newVec b.by) (a := b.by) (.head _) rfl rfl
          simpa [World.swap, Good, World.orUb] using this
      · obtain ⟨a, ha, ⟨h1, h3⟩ | ⟨b, hb, h1, h2, rfl, h4, h5, h6, h7⟩⟩ := i.boxed h hk
        · rw [ha]
          simp only
          rw [if_neg (by omega)]
          exact i.dropTok h ha h1
        · rw [ha, h1]
          simp only
          rw [if_pos h4, Option.bind_some, show (w.swap c []).free b.by b.addr = _ from free_eq i hb ([] ++ w.conts.erase c)]
          have := (i.release h ha hb h1 h6 h7).dropTok (c := newVec b.by) (a := b.by) (.head _) rfl rfl
          simpa [World.swap, Good, World.orUb] using this
      · obtain ⟨a, ha, h1⟩ := i.single h hk
        rw [ha]
        exact i.dropTok h ha h1
      all_goals
        obtain ⟨ha, b, hb, hr, hat, hcnt⟩ := i.shared h (by rw [hk]; first | exact .inl rfl | exact .inr rfl)
        rw [hr, ha]
        first
        | exact dropArc_good i h (by rw [hk]; rfl) hr
        | exact dropWeak_good i h (by rw [hk]; rfl) hr
    · trivial
  | sovPush c ans =>
    simp only [step]
    split
    · rename_i h
      cases hk : c.kind
      · obtain ⟨a, ha, ⟨h1, h2, h3⟩ | ⟨b, hb, h1, h2, h3, h4, h5, h6⟩⟩ := i.vec h hk
        · rw [ha]
          simp only
          rw [if_pos h2]
          refine i.move (xs := [c]) (ys := [⟨.single, some a, none, 0, 1⟩]) (cs := w.conts.erase c) (perm_erase h) (.refl _) rfl (by simpa using h1)
            (by simp) i.nodup ?_ ?_
          · intro x; simp [World.swap, ha]
          · simp [ContOk]
        · rw [ha]
          simp only
          rw [if_neg h4]
          split
          · refine i.relabel (a := a) (b := b) (b' := b) (c := c) (c' := { c with len := c.len + 1 }) h (by rw [hk]; rfl) (by simp only [hk]; rfl) ha ha hb h1 h1
              rfl (List.perm_cons_erase hb) (by rw [World.swap, hk]; simp only [← ha]; rfl) ⟨rfl, rfl, rfl⟩ ?_
            simp only [ContOk, hk]
            exact ⟨a, ha, .inr ⟨_, .head _, h1, h3, h4⟩⟩
          · trivial
      all_goals first | trivial | skip
      obtain ⟨a, ha, h1⟩ := i.single h hk
      rw [ha]
      cases ans with
      | none => exact i
      | some q => exact good_vacant fun hq => i.fill h ha h1 hq (by decide) rfl
    · trivial
  | sovReserve c n ans =>
    simp only [step]
    split
    · rename_i h
      obtain ⟨a, ha, h1⟩ := i.single h.1 h.2
      rw [ha]
      cases ans with
      | none => exact absurd rfl hf
      | some q => exact good_vacant fun hq => i.fill h.1 ha h1 hq (by omega) rfl
    · trivial
  | sovTruncate c =>
    simp only [step]
    split
    · rename_i h
      obtain ⟨a, ha, h1⟩ := i.single h.1 h.2
      refine i.move (xs := [c]) (ys := [⟨.vec, c.alloc, none, 0, 0⟩]) (cs := w.conts.erase c) (perm_erase h.1) (.refl _) rfl (by simpa using h1)
        (by simp) i.nodup ?_ ?_
      · intro x; simp [World.swap, ha]
      · simp [ContOk, ha]
    · trivial
  | sovIntoVec c n ans =>
    simp only [step]
    split
    · rename_i h
      obtain ⟨a, ha, h1⟩ := i.single h.1 h.2.1
      rw [ha]
      cases ans with
      | none => exact i.dropTok h.1 ha h1
      | some q => exact good_vacant fun hq => i.fill h.1 ha h1 hq h.2.2 rfl
    · trivial
  | swapAllocs c d => exact hf.elim

/-! ### Theorems -/

theorem inv_empty : Inv World.empty := ⟨by simp [World.empty], by simp [World.empty], by simp [World.empty, places], by simp [World.empty], by simp [World.empty]⟩

theorem run_good {zsa : Bool} {w : World} (i : Inv w) {ops : List Op} (hf : FairRun zsa w ops) : Good (run zsa w ops) := by
  induction ops generalizing w with
  | nil => exact i
  | cons op ops ih =>
    have h := step_good i hf.1
    unfold run
    cases hs : step zsa w op with
    | done w' =>
      rw [hs] at h
      exact ih h (hf.2 w' hs)
    | ub => rw [hs] at h; exact h
    | invalid => trivial

theorem Inv.balanced {w : World} (i : Inv w) : Balanced w := by
  intro x
  rw [← i.toks x]
  split
  · rw [i.nodup.count, if_pos ‹_›]
  · exact List.count_eq_zero.mpr ‹_›

theorem num_pos {k : Kind → Bool} {cs : List Cont} {p : Nat} (h : num k cs p ≠ 0) : ∃ c ∈ cs, k c.kind = true ∧ c.ref = some p := by
  have h := Nat.pos_of_ne_zero h
  rw [num, List.countP_pos_iff] at h
  simpa using h

theorem Inv.owned {w : World} (i : Inv w) : Owned w := by
  intro b hb
  have key : ∀ k, num k w.conts b.addr ≠ 0 → ∃ c ∈ w.conts, c.ref = some b.addr := fun k hk =>
    let ⟨c, hc, _, hr⟩ := num_pos hk
    ⟨c, hc, hr⟩
  rcases i.blocks b hb with ⟨_, h, _⟩ | ⟨_, _, h3, h4, h5⟩
  · exact key owns (by omega)
  · by_cases h : num strong w.conts b.addr = 0
    · rw [if_pos h] at h4
      exact key isWeak (by omega)
    · exact key strong h

theorem Inv.alive {w : World} (i : Inv w) : Alive w := by
  intro b hb
  have h := i.balanced b.by
  have key : (w.conts.filterMap (·.alloc)).count b.by + (w.heap.filterMap (·.slot)).count b.by ≠ 0 := by
    rcases i.blocks b hb with ⟨_, h, _⟩ | ⟨h, _⟩
    · obtain ⟨c, hc, hk, hr⟩ := num_pos (k := owns) (cs := w.conts) (p := b.addr) (by omega)
      have ha : c.alloc = some b.by := by
        cases hk' : c.kind <;> rw [hk'] at hk
        · obtain ⟨a, ha, ⟨h1, _⟩ | ⟨d, hd, h1, _, rfl, _⟩⟩ := i.vec hc hk'
          · rw [h1] at hr; cases hr
          · rw [h1] at hr
            rw [addr_inj i.addrs hb hd (Option.some.inj hr).symm]; exact ha
        · obtain ⟨a, ha, ⟨h1, _⟩ | ⟨d, hd, h1, _, rfl, _⟩⟩ := i.boxed hc hk'
          · rw [h1] at hr; cases hr
          · rw [h1] at hr
            rw [addr_inj i.addrs hb hd (Option.some.inj hr).symm]; exact ha
        · obtain ⟨a, ha, h1⟩ := i.single hc hk'
          rw [h1] at hr; cases hr
        all_goals cases hk
      have : b.by ∈ w.conts.filterMap (·.alloc) := List.mem_filterMap.mpr ⟨c, hc, ha⟩
      have := List.count_pos_iff.mpr this
      omega
    · have : b.by ∈ w.heap.filterMap (·.slot) := List.mem_filterMap.mpr ⟨b, hb, h⟩
      have := List.count_pos_iff.mpr this
      omega
  unfold places at h
  constructor <;> intro hm <;> have := List.count_pos_iff.mpr hm <;> split at h <;> omega

/-- **C91**: programs that are fair have no undefined behaviour: blocks are only freed by the allocator that allocated them, and allocators are
only read where they are.  Each allocator is always in one place, and each block is reachable, and its allocator was not destroyed.

Partial: `Fair` excludes safe code, for which each of the refutations below shows that this fails. -/
theorem C91_history_partial (zsa : Bool) (ops : List Op) (hf : FairRun zsa World.empty ops) :
    run zsa World.empty ops ≠ .ub ∧ ∀ w, run zsa World.empty ops = .done w → Balanced w ∧ Owned w ∧ Alive w := by
  have h := run_good inv_empty hf
  constructor
  · intro e; rw [e] at h; exact h
  · intro w e
    rw [e] at h
    exact ⟨Inv.balanced h, Inv.owned h, Inv.alive h⟩

/-- **C91**: when all containers are dropped, no block is left, and each allocator either is still the program's, or was destroyed once. -/
theorem C91_end_partial (zsa : Bool) (ops : List Op) (hf : FairRun zsa World.empty ops) (w : World) (hr : run zsa World.empty ops = .done w)
    (hc : w.conts = []) : w.heap = [] ∧ ∀ a ∈ w.created, w.allocs.count a + w.dropped.count a = 1 := by
  obtain ⟨_, h⟩ := C91_history_partial zsa ops hf
  obtain ⟨hb, ho, _⟩ := h w hr
  have he : w.heap = [] := by
    cases hh : w.heap with
    | nil => rfl
    | cons b l =>
      obtain ⟨c, hm, _⟩ := ho b (by rw [hh]; exact .head _)
      rw [hc] at hm
      cases hm
  refine ⟨he, fun a ha => ?_⟩
  have := hb a
  unfold places at this
  rw [if_pos ha, hc, he] at this
  simpa using this

/-- A program with every kind of container. -/
def sample : List Op := [
  .create 1, .withCapacity 1 4 (some 10) false, .setLen ⟨.vec, some 1, some 10, 4, 0⟩ 4, .reserve ⟨.vec, some 1, some 10, 4, 4⟩ 4 (some 20),
  .cloneVec ⟨.vec, some 1, some 20, 8, 4⟩ 2 (some 10), .toBoxed ⟨.vec, some 2, some 10, 4, 4⟩, .toArc ⟨.vec, some 1, some 20, 8, 4⟩ none,
  .downgrade ⟨.arcSlice, none, some 20, 0, 4⟩, .drop ⟨.arcSlice, none, some 20, 0, 4⟩, .upgrade ⟨.weakSlice, none, some 20, 0, 4⟩,
  .drop ⟨.weakSlice, none, some 20, 0, 4⟩, .drop ⟨.boxed, some 2, some 10, 0, 4⟩,
  .create 3, .newArc 3 (some 20) false, .clone ⟨.arc, none, some 20, 0, 1⟩, .makeMut ⟨.arc, none, some 20, 0, 1⟩ 4 (some 30),
  .intoInner ⟨.arc, none, some 20, 0, 1⟩, .drop ⟨.arc, none, some 30, 0, 1⟩,
  .create 5, .newIn 5, .sovPush (newVec 5) none, .sovPush ⟨.single, some 5, none, 0, 1⟩ (some 40), .drop ⟨.vec, some 5, some 40, 8, 2⟩]

instance (zsa : Bool) (w : World) (op : Op) : Decidable (Fair zsa w op) := by
  cases op <;> simp only [Fair] <;> infer_instance

/-- Whether a program is fair, by running it. -/
def fair (zsa : Bool) (w : World) : List Op → Bool
  | [] => true
  | op :: ops => decide (Fair zsa w op) && (match step zsa w op with
    | .done w' => fair zsa w' ops
    | _ => true)

theorem fairRun {zsa : Bool} {w : World} {ops : List Op} (h : fair zsa w ops = true) : FairRun zsa w ops := by
  induction ops generalizing w with
  | nil => trivial
  | cons op ops ih =>
    simp only [fair, Bool.and_eq_true, decide_eq_true_eq] at h
    refine ⟨h.1, fun w' e => ?_⟩
    have h2 := h.2
    rw [e] at h2
    exact ih h2

example : FairRun false World.empty sample := fairRun (by decide +kernel)
example : run false World.empty sample = .done ⟨[], [], [], [5, 4, 3, 2, 1], [5, 4, 3, 2, 1]⟩ := by decide +kernel

/-- The number of elements in the containers of the program. -/
def total (w : World) : Nat := (w.conts.map (·.len)).sum

/-- A `Single`, an `Arc` and a `Weak` are of one element. -/
def Ones (w : World) : Prop := ∀ c ∈ w.conts, c.kind = .single ∨ c.kind = .arc ∨ c.kind = .weak → c.len = 1

theorem total_swap {w : World} {c : Cont} (hc : c ∈ w.conts) (cs : List Cont) : total (w.swap c cs) + c.len = total w + (cs.map (·.len)).sum := by
  have := ((List.perm_cons_erase hc).map (·.len)).sum_nat
  simp only [total, World.swap, List.map_append, List.sum_append, List.map_cons, List.sum_cons] at this ⊢
  omega

theorem free_conts {w w' : World} {a p : Nat} (h : w.free a p = some w') : w'.conts = w.conts := by
  unfold World.free at h
  split at h
  · split at h
    · cases h; rfl
    · cases h
  · cases h

theorem dropWeak_conts {w w' : World} {p : Nat} (h : w.dropWeak p = .done w') : w'.conts = w.conts := by
  unfold World.dropWeak at h
  split at h
  · cases h
  · split at h
    · cases h; rfl
    · split at h
      · cases h
      · rename_i a _
        cases hf : w.free a p with
        | none => rw [hf] at h; cases h
        | some w1 =>
          rw [hf] at h
          cases h
          exact (free_conts hf : w1.conts = w.conts)

theorem dropArc_conts {w w' : World} {p : Nat} (h : w.dropArc p = .done w') : w'.conts = w.conts := by
  unfold World.dropArc at h
  split at h
  · cases h
  · dsimp only at h
    split at h
    · cases h; rfl
    · exact (dropWeak_conts h).trans rfl

theorem vacant_done {w w' : World} {q : Nat} {r : Out} (h : w.ifVacant q r = .done w') : w.vacant q = true ∧ r = .done w' := by
  unfold World.ifVacant at h
  split at h
  · exact ⟨‹_›, h⟩
  · cases h

theorem grow_conts {w w' : World} {c : Cont} {a n q : Nat} (h : w.grow c a n q = .done w') :
    w'.conts = { c with ref := some q, cap := c.len + n } :: w.conts.erase c := by
  unfold World.grow at h
  dsimp only at h
  split at h
  · split at h
    · cases h
    · rename_i p _
      cases hf : w.free a p with
      | none => rw [hf] at h; cases h
      | some w1 =>
        rw [hf] at h
        obtain ⟨_, h⟩ := vacant_done h
        cases h
        simp [World.swap, World.allocate, free_conts hf]
  · obtain ⟨_, h⟩ := vacant_done h
    cases h; rfl

/-- Conversions, and reservations of room. -/
def converts : Op → Bool
  | .reserve .. | .toBoxed _ | .toVec _ | .arcToVec _ => true
  | .toArc _ ans | .sovReserve _ _ ans | .sovIntoVec _ _ ans => ans.isSome
  | _ => false

theorem total_of {w w' : World} {c : Cont} {cs : List Cont} (hc : c ∈ w.conts) (h : w'.conts = cs ++ w.conts.erase c) (hl : (cs.map (·.len)).sum = c.len) :
    total w' = total w := by
  have := ((List.perm_cons_erase hc).map (·.len)).sum_nat
  simp only [total, h, List.map_append, List.sum_append, List.map_cons, List.sum_cons] at this ⊢
  omega

theorem ones_step {zsa : Bool} {w w' : World} {op : Op} (h : Ones w) (e : step zsa w op = .done w') : Ones w' := by
  have sub : ∀ (cs : List Cont) (c : Cont), (w'.conts = cs ++ w.conts ∨ w'.conts = cs ++ w.conts.erase c) →
      (∀ d ∈ cs, d.kind = .single ∨ d.kind = .arc ∨ d.kind = .weak → d.len = 1) → Ones w' := by
    intro cs c hw hcs d hd hk
    rcases hw with hw | hw <;> rw [hw, List.mem_append] at hd <;> rcases hd with hd | hd
    · exact hcs d hd hk
    · exact h d hd hk
    · exact hcs d hd hk
    · exact h d (List.mem_of_mem_erase hd) hk
  have one : ∀ (d c : Cont), (w'.conts = d :: w.conts ∨ w'.conts = d :: w.conts.erase c) →
      (d.kind = .single ∨ d.kind = .arc ∨ d.kind = .weak → d.len = 1) → Ones w' := by
    intro d c hw hd
    exact sub [d] c hw (by intro x hx; rw [List.mem_singleton.1 hx]; exact hd)
  have none' : ∀ c, (w'.conts = w.conts ∨ w'.conts = w.conts.erase c) → Ones w' := fun c hw => sub [] c hw (by simp)
  cases op
  case reserve c n ans =>
    simp only [step] at e
    split at e
    · rename_i hc
      split at e
      · cases e
      · split at e
        · cases e; exact h
        · split at e
          · cases e; exact h
          · exact one _ c (.inr (grow_conts e)) (by rintro (h | h | h) <;> rw [show _ = Kind.vec from hc.2] at h <;> cases h)
    · cases e
  case swapAllocs c d =>
    simp only [step] at e
    split at e
    · rename_i hc
      cases e
      intro x hx hk
      simp only [List.mem_cons] at hx
      rcases hx with rfl | rfl | hx
      · simp [hc.2.2.1] at hk
      · simp [hc.2.2.2] at hk
      · exact h x (List.mem_of_mem_erase (List.mem_of_mem_erase hx)) hk
    · cases e
  case makeMut c a ans =>
    simp only [step] at e
    repeat' split at e
    all_goals first
      | (cases e; exact none' c (.inl rfl))
      | (obtain ⟨_, e⟩ := vacant_done e; exact one _ c (.inr (dropArc_conts e)) (fun _ => rfl))
      | cases e
  case intoInner c =>
    simp only [step] at e
    repeat' split at e
    all_goals first
      | exact none' c (.inr (dropWeak_conts e))
      | (cases e; exact none' c (.inl rfl))
      | cases e
  case fromArc c =>
    simp only [step] at e
    repeat' split at e
    all_goals first
      | exact one _ c (.inr (dropArc_conts e)) (fun _ => rfl)
      | cases e
  case drop c =>
    simp only [step] at e
    split at e
    · split at e
      all_goals (try split at e)
      all_goals first
        | exact none' c (.inr (dropArc_conts e))
        | exact none' c (.inr (dropWeak_conts e))
        | (cases e; exact none' c (.inr rfl))
        | cases e
        | skip
      all_goals
        simp only [World.orUb] at e
        split at e
        · rename_i w1 hf
          cases e
          obtain ⟨p', _, hp⟩ := Option.bind_eq_some_iff.1 hf
          exact none' c (.inr (free_conts hp : w1.conts = _))
        · cases e
    · cases e
  case downgrade c =>
    simp only [step] at e
    split at e
    · rename_i hc
      split at e
      · rename_i hk _
        cases e; exact one _ c (.inl rfl) (fun _ => h c hc (.inr (.inl hk)))
      · cases e; exact one _ c (.inl rfl) (by rintro (h | h | h) <;> cases h)
      all_goals cases e
    · cases e
  case upgrade c =>
    simp only [step] at e
    split at e
    · rename_i hc
      split at e
      · rename_i hk _
        split at e
        · cases e; exact h
        · cases e; exact one _ c (.inl rfl) (fun _ => h c hc (.inr (.inr hk)))
      · split at e
        · cases e; exact h
        · cases e; exact one _ c (.inl rfl) (by rintro (h | h | h) <;> cases h)
      all_goals cases e
    · cases e
  all_goals
    simp only [step] at e
    (repeat' split at e) <;> (first | (replace e := (vacant_done e).2) | skip) <;> (repeat' split at e) <;> first
      | (cases e; done)
      | (cases e; exact none' (newVec 0) (.inl rfl))
      | (cases e; exact none' _ (.inr rfl))
      | (cases e; exact one _ (newVec 0) (.inl rfl) (fun hk => h _ (by assumption) hk))
      | (cases e; exact one _ (newVec 0) (.inl rfl) (fun _ => h _ (by assumption) (by simp [*]; done)))
      | (cases e; exact one _ (newVec 0) (.inl rfl) (by intro hk; simp_all [newVec]; done))
      | (cases e; exact one _ _ (.inr rfl) (by intro hk; simp_all; done))
      | skip
theorem ones_run {zsa : Bool} {w w' : World} {ops : List Op} (h : Ones w) (e : run zsa w ops = .done w') : Ones w' := by
  induction ops generalizing w with
  | nil => cases e; exact h
  | cons op ops ih =>
    unfold run at e
    cases hs : step zsa w op with
    | done w1 => rw [hs] at e; exact ih (ones_step h hs) e
    | ub => rw [hs] at e; cases e
    | invalid => rw [hs] at e; cases e

theorem elements_step (zsa : Bool) (w w' : World) (h : Ones w) (op : Op) (ho : converts op = true) (e : step zsa w op = .done w') : total w' = total w := by
  cases op <;> simp only [converts, Bool.false_eq_true] at ho
  case reserve c n ans =>
    simp only [step] at e
    split at e
    · rename_i hc
      split at e
      · cases e
      · split at e
        · cases e; rfl
        · split at e
          · cases e; rfl
          · exact total_of (cs := [_]) hc.1 (grow_conts e) (by simp)
    · cases e
  case toBoxed c =>
    simp only [step] at e
    split at e
    · rename_i hc
      split at e
      · split at e
        · cases e
        · cases e; exact total_of (cs := [_]) hc.1 rfl (by simp)
      · cases e; exact total_of (cs := [_]) hc.1 rfl (by simp)
    · cases e
  case toVec c =>
    simp only [step] at e
    split at e
    · rename_i hc
      split at e
      · cases e; exact total_of (cs := [_]) hc.1 rfl (by simp)
      · split at e
        · cases e
        · cases e; exact total_of (cs := [_]) hc.1 rfl (by simp)
    · cases e
  case arcToVec c =>
    simp only [step] at e
    split at e
    · rename_i hc
      split at e
      · cases e
      · split at e
        · split at e
          · cases e
          · cases e; exact total_of (cs := [_]) hc.1 rfl (by simp)
        · cases e; rfl
    · cases e
  case toArc c ans =>
    simp only [step] at e
    split at e
    · rename_i hc
      split at e
      · cases e
      · split at e
        · split at e
          · cases e
          · cases e; exact total_of (cs := [_]) hc.1 rfl (by simp)
        · split at e
          · cases ho
          · obtain ⟨_, e⟩ := vacant_done e
            split at e
            · cases e; exact total_of (cs := [_]) hc.1 rfl (by simp)
            · split at e
              · cases e
              · cases e; exact total_of (cs := [_]) hc.1 rfl (by simp)
    · cases e
  case sovReserve c n ans =>
    simp only [step] at e
    split at e
    · rename_i hc
      split at e
      · cases e
      · split at e
        · cases ho
        · obtain ⟨_, e⟩ := vacant_done e
          cases e; exact total_of (cs := [_]) hc.1 rfl (by simp [h c hc.1 (.inl hc.2)])
    · cases e
  case sovIntoVec c n ans =>
    simp only [step] at e
    split at e
    · rename_i hc
      split at e
      · cases e
      · split at e
        · cases ho
        · obtain ⟨_, e⟩ := vacant_done e
          cases e; exact total_of (cs := [_]) hc.1 rfl (by simp [h c hc.1 (.inl hc.2.1)])
    · cases e

/-- **C91**: converting a container into another, and reserving room, keep its elements (their number here). -/
theorem C91_elements (zsa : Bool) (ops : List Op) (w w' : World) (hr : run zsa World.empty ops = .done w) (op : Op) (ho : converts op = true)
    (e : step zsa w op = .done w') : total w' = total w :=
  elements_step zsa w w' (ones_run (by intro c hc; cases hc) hr) op ho e
example : ∃ w w', run false World.empty [.create 5, .newIn 5, .sovPush (newVec 5) none] = .done w ∧
    step false w (.sovReserve ⟨.single, some 5, none, 0, 1⟩ 4 (some 40)) = .done w' ∧ total w = 1 ∧ total w' = 1 :=
  ⟨⟨[], [⟨.single, some 5, none, 0, 1⟩], [], [5], []⟩, ⟨[⟨40, 5, none, 5, 1, 1⟩], [⟨.vec, some 5, some 40, 5, 1⟩], [], [5], []⟩, by decide +kernel⟩

theorem dropArc_keeps {w w' : World} {p : Nat} (h : w.dropArc p = .done w') {b : Blk} (hb : b ∈ w.heap) (hp : b.addr ≠ p) : b ∈ w'.heap := by
  have weak : ∀ w : World, w.dropWeak p = .done w' → b ∈ w.heap → b ∈ w'.heap := by
    intro w h hb
    unfold World.dropWeak at h
    split at h
    · cases h
    · rename_i d hd
      have hne : b ≠ d := by rintro rfl; exact hp (at_mem hd).2
      split at h
      · cases h
        exact List.mem_cons_of_mem _ ((List.mem_erase_of_ne hne).2 hb)
      · split at h
        · cases h
        · simp only [World.orUb] at h
          split at h
          · rename_i w1 hf
            cases h
            unfold World.free at hf
            rw [hd] at hf
            dsimp only at hf
            split at hf
            · cases hf
              exact (List.mem_erase_of_ne hne).2 hb
            · cases hf
          · cases h
  unfold World.dropArc at h
  split at h
  · cases h
  · rename_i d hd
    have hne : b ≠ d := by rintro rfl; exact hp (at_mem hd).2
    have hb' : b ∈ (w.write d { d with strong := d.strong - 1 }).heap := List.mem_cons_of_mem _ ((List.mem_erase_of_ne hne).2 hb)
    dsimp only at h
    split at h
    · cases h; exact hb'
    · exact weak _ h hb'

/-- **C91**: after `make_mut` the program has an `Arc` whose block no other handle shares. -/
theorem C91_make_mut (zsa : Bool) (w w' : World) (c : Cont) (a q : Nat) (e : step zsa w (.makeMut c a (some q)) = .done w') :
    ∃ c' ∈ w'.conts, ∃ b ∈ w'.heap, c'.kind = .arc ∧ c'.ref = some b.addr ∧ b.strong = 1 ∧ b.weak = 1 := by
  simp only [step] at e
  split at e
  · rename_i hc
    split at e
    · cases e
    · rename_i p hp
      split at e
      · cases e
      · rename_i b hb
        split at e
        · rename_i hu
          cases e
          exact ⟨c, hc.1, b, (at_mem hb).1, hc.2, by rw [hp, (at_mem hb).2], hu⟩
        · split at e
          · cases e
          · split at e
            · cases e
            · obtain ⟨hv, e⟩ := vacant_done e
              have hq : q ≠ p := by
                rintro rfl
                exact vacant_iff.1 hv b (at_mem hb).1 (at_mem hb).2
              refine ⟨⟨.arc, none, some q, 0, 1⟩, ?_, ⟨q, a, some a, 1, 1, 1⟩, dropArc_keeps e (List.mem_cons_self ..) hq, rfl, rfl, rfl, rfl⟩
              rw [dropArc_conts e]
              exact List.mem_cons_self ..
  · cases e
example : ∃ w', step false ⟨[⟨20, 3, some 3, 1, 2, 1⟩], [⟨.arc, none, some 20, 0, 1⟩, ⟨.arc, none, some 20, 0, 1⟩], [], [3], []⟩
    (.makeMut ⟨.arc, none, some 20, 0, 1⟩ 4 (some 30)) = .done w' :=
  ⟨⟨[⟨20, 3, some 3, 1, 1, 1⟩, ⟨30, 4, some 4, 1, 1, 1⟩], [⟨.arc, none, some 30, 0, 1⟩, ⟨.arc, none, some 20, 0, 1⟩], [], [4, 3], []⟩, by decide +kernel⟩

/-- **C91**, refuted: allocators can be exchanged with `allocator_mut`, which is safe, and each vector frees the block of the other. -/
theorem C91_exchange_refuted : run false World.empty [
    .create 1, .withCapacity 1 4 (some 10) false, .create 2, .withCapacity 2 4 (some 20) false,
    .swapAllocs ⟨.vec, some 1, some 10, 4, 0⟩ ⟨.vec, some 2, some 20, 4, 0⟩, .drop ⟨.vec, some 2, some 10, 4, 0⟩] = .ub := by decide +kernel

/-- **C91**, refuted: the block of a vector without elements is never freed once it is boxed. -/
theorem C91_box_leak_refuted : ∃ w, run false World.empty [
    .create 1, .withCapacity 1 4 (some 10) false, .toBoxed ⟨.vec, some 1, some 10, 4, 0⟩, .drop ⟨.boxed, some 1, some 10, 0, 0⟩] = .done w ∧
    w.conts = [] ∧ w.heap ≠ [] ∧ w.dropped = [1] :=
  ⟨⟨[⟨10, 1, none, 4, 1, 1⟩], [], [], [1], [1]⟩, by decide +kernel, rfl, by decide, rfl⟩

/-- **C91**, refuted: pushing into a boxed slice without memory reads the prefix of a block that does not exist. -/
theorem C91_box_push_refuted : run false World.empty [
    .create 1, .newIn 1, .toBoxed (newVec 1), .tryPush ⟨.boxed, some 1, none, 0, 0⟩] = .ub := by decide +kernel

/-- **C91**, refuted: sharing a vector without memory writes its allocator to the prefix of a block that does not exist. -/
theorem C91_share_refuted : run false World.empty [.create 1, .newIn 1, .toArc (newVec 1) (some 10)] = .ub := by decide +kernel

/-- **C91**, refuted: with allocators without a size, making a vector of such a slice again leaks its block. -/
theorem C91_unshare_leak_refuted : ∃ w, run true World.empty [
    .create 1, .newIn 1, .toArc (newVec 1) (some 10), .arcToVec ⟨.arcSlice, none, some 10, 0, 0⟩, .drop ⟨.vec, some 1, some 10, 0, 0⟩] = .done w ∧
    w.conts = [] ∧ w.heap ≠ [] ∧ w.dropped = [1] :=
  ⟨⟨[⟨10, 1, none, 0, 1, 1⟩], [], [], [1], [1]⟩, by decide +kernel, rfl, by decide, rfl⟩

/-- **C91**, refuted: the slice made from an `Arc` points to a freed block, whose allocator was destroyed. -/
theorem C91_from_arc_refuted :
    (∃ w, run false World.empty [.create 1, .newArc 1 (some 10) false, .fromArc ⟨.arc, none, some 10, 0, 1⟩] = .done w ∧
      w.conts = [⟨.arcSlice, none, some 10, 0, 1⟩] ∧ w.heap = [] ∧ w.dropped = [1]) ∧
    run false World.empty [.create 1, .newArc 1 (some 10) false, .fromArc ⟨.arc, none, some 10, 0, 1⟩, .drop ⟨.arcSlice, none, some 10, 0, 1⟩] = .ub :=
  ⟨⟨⟨[], [⟨.arcSlice, none, some 10, 0, 1⟩], [], [1], [1]⟩, by decide +kernel, rfl, rfl, rfl⟩, by decide +kernel⟩

/-- **C91**, refuted: when reserving capacity in a `SingleOrVec` with one element fails, its allocator is destroyed, and again when it is dropped. -/
theorem C91_reserve_refuted : ∃ w, run false World.empty [
    .create 1, .newIn 1, .sovPush (newVec 1) none, .sovReserve ⟨.single, some 1, none, 0, 1⟩ 4 none, .drop ⟨.single, some 1, none, 0, 1⟩] = .done w ∧
    w.dropped = [1, 1] :=
  ⟨⟨[], [], [], [1], [1, 1]⟩, by decide +kernel, rfl⟩

end Verif.Props.Handles
