import Verif.Alloc.Box

/-! C67: boxes and boxed closures own their value and their memory, whatever user code unwinds. -/
namespace Verif.Props.Box
open Verif.Alloc.Box

/-! ### Specifications -/

/-- Where the values that exist are: owned by the program, in an allocated block, dropped, consumed by a call. -/
def places (w : World) : List Nat := w.vals ++ w.heap.filterMap (·.val) ++ w.dropped ++ w.called.map (·.1)

/-- Where the allocator handles are: owned by the program, in the prefix of an allocated block, dropped. -/
def placesA (w : World) : List Nat := w.allocs ++ w.heap.filterMap (·.alloc) ++ w.droppedA

/-- Every block is owned by a handle of the program: nothing is leaked. -/
def Owned (w : World) : Prop := ∀ b ∈ w.heap, ∃ h ∈ w.handles, h.addr = b.addr

/-! ### The invariant -/

/-- `fl`: the values that are on their way. -/
structure Inv (fl : List Nat) (w : World) : Prop where
  addrs : (w.heap.map (·.addr)).Nodup
  hands : (w.handles.map (·.addr)).Nodup
  live : ∀ h ∈ w.handles, ∃ b ∈ w.heap, b.addr = h.addr ∧ (h.kind ≠ .uninit → b.val.isSome) ∧ (h.kind = .uninit → b.val = none)
  alloc : ∀ b ∈ w.heap, b.alloc.isSome
  vals : ∀ x, w.created.count x = w.vals.count x + (w.heap.filterMap (·.val)).count x + w.dropped.count x + (w.called.map (·.1)).count x + fl.count x
  nodup : w.created.Nodup
  allocs : ∀ x, w.createdA.count x = w.allocs.count x + (w.heap.filterMap (·.alloc)).count x + w.droppedA.count x
  nodupA : w.createdA.Nodup

theorem count_mem {l : List Nat} {v : Nat} (h : v ∈ l) (x : Nat) : l.count x = [v].count x + (l.erase v).count x := by
  have := (List.perm_cons_erase h).count_eq x
  rw [this, show v :: l.erase v = [v] ++ l.erase v from rfl, List.count_append]

theorem count_cons' (l : List Nat) (v x : Nat) : (v :: l).count x = [v].count x + l.count x := by
  rw [show v :: l = [v] ++ l from rfl, List.count_append]

theorem count_heap {l : List Blk} {b : Blk} (h : b ∈ l) (f : Blk → Option Nat) (x : Nat) :
    (l.filterMap f).count x = (f b).toList.count x + ((l.erase b).filterMap f).count x := by
  have := ((List.perm_cons_erase h).filterMap f).count_eq x
  rw [this, List.filterMap_cons]
  cases f b with
  | none => simp
  | some v => simp only [Option.toList_some]; exact count_cons' _ _ _

theorem count_heap_cons (l : List Blk) (b : Blk) (f : Blk → Option Nat) (x : Nat) :
    ((b :: l).filterMap f).count x = (f b).toList.count x + (l.filterMap f).count x := by
  rw [List.filterMap_cons]
  cases f b with
  | none => simp
  | some v => simp only [Option.toList_some]; exact count_cons' _ _ _

theorem at_mem {w : World} {p : Nat} {b : Blk} (h : w.at p = some b) : b ∈ w.heap ∧ b.addr = p := by
  have h1 := List.mem_of_find?_eq_some h
  have h2 := List.find?_some h
  exact ⟨h1, by simpa using h2⟩

theorem addr_inj {l : List Blk} (hn : (l.map (·.addr)).Nodup) {b c : Blk} (hb : b ∈ l) (hc : c ∈ l) (e : b.addr = c.addr) : b = c := by
  induction l with
  | nil => cases hb
  | cons d l ih =>
    simp only [List.map_cons, List.nodup_cons, List.mem_map, not_exists, not_and] at hn
    rcases List.mem_cons.mp hb with rfl | hb' <;> rcases List.mem_cons.mp hc with rfl | hc'
    · rfl
    · exact absurd e.symm (hn.1 c hc')
    · exact absurd e (hn.1 b hb')
    · exact ih hn.2 hb' hc'

theorem hand_inj {l : List Handle} (hn : (l.map (·.addr)).Nodup) {b c : Handle} (hb : b ∈ l) (hc : c ∈ l) (e : b.addr = c.addr) : b = c := by
  induction l with
  | nil => cases hb
  | cons d l ih =>
    simp only [List.map_cons, List.nodup_cons, List.mem_map, not_exists, not_and] at hn
    rcases List.mem_cons.mp hb with rfl | hb' <;> rcases List.mem_cons.mp hc with rfl | hc'
    · rfl
    · exact absurd e.symm (hn.1 c hc')
    · exact absurd e (hn.1 b hb')
    · exact ih hn.2 hb' hc'

theorem at_eq {w : World} (hn : (w.heap.map (·.addr)).Nodup) {b : Blk} (hb : b ∈ w.heap) : w.at b.addr = some b := by
  cases h : w.at b.addr with
  | none =>
    unfold World.at at h
    rw [List.find?_eq_none] at h
    exact absurd (by simp) (h b hb)
  | some c =>
    obtain ⟨hc, e⟩ := at_mem h
    rw [addr_inj hn hc hb e]

theorem vacant_iff {w : World} {p : Nat} : w.vacant p = true ↔ ∀ b ∈ w.heap, b.addr ≠ p := by
  unfold World.vacant World.at
  rw [Option.isNone_iff_eq_none, List.find?_eq_none]
  simp

theorem nodup_of_map {α β : Type} (f : α → β) {l : List α} (h : (l.map f).Nodup) : l.Nodup := by
  induction l with
  | nil => exact List.nodup_nil
  | cons a l ih =>
    simp only [List.map_cons, List.nodup_cons, List.mem_map, not_exists, not_and] at h ⊢
    exact ⟨fun ha => h.1 a ha rfl, ih h.2⟩

theorem mem_erase_blk {l : List Blk} (hn : (l.map (·.addr)).Nodup) {b c : Blk} : c ∈ l.erase b ↔ c ≠ b ∧ c ∈ l :=
  (nodup_of_map _ hn).mem_erase_iff

theorem mem_erase_hand {l : List Handle} (hn : (l.map (·.addr)).Nodup) {b c : Handle} : c ∈ l.erase b ↔ c ≠ b ∧ c ∈ l :=
  (nodup_of_map _ hn).mem_erase_iff

theorem nodup_map_erase {α : Type} [DecidableEq α] (f : α → Nat) {l : List α} (hn : (l.map f).Nodup) (a : α) : ((l.erase a).map f).Nodup :=
  hn.sublist (List.Sublist.map f List.erase_sublist)

/-- A handle and its block. -/
theorem Inv.block {fl : List Nat} {w : World} (i : Inv fl w) {h : Handle} (hh : h ∈ w.handles) :
    ∃ b, b ∈ w.heap ∧ b.addr = h.addr ∧ w.at h.addr = some b ∧ (∃ a, b.alloc = some a) ∧ (h.kind ≠ .uninit → ∃ v, b.val = some v) ∧
      (h.kind = .uninit → b.val = none) := by
  obtain ⟨b, hb, e, hv, hu⟩ := i.live h hh
  refine ⟨b, hb, e, by rw [← e]; exact at_eq i.addrs hb, Option.isSome_iff_exists.mp (i.alloc b hb), fun k => Option.isSome_iff_exists.mp (hv k), hu⟩

/-- Giving up a handle. -/
theorem Inv.take {fl : List Nat} {w : World} (i : Inv fl w) (h : Handle) : Inv fl (w.take h) :=
  { addrs := i.addrs, hands := nodup_map_erase _ i.hands h, live := fun h' hh => i.live h' (List.mem_of_mem_erase hh), alloc := i.alloc,
    vals := i.vals, nodup := i.nodup, allocs := i.allocs, nodupA := i.nodupA }

theorem take_other {fl : List Nat} {w : World} (i : Inv fl w) {h : Handle} (hh : h ∈ w.handles) : ∀ h' ∈ (w.take h).handles, h'.addr ≠ h.addr := by
  intro h' hh' e
  have := (mem_erase_hand i.hands).mp hh'
  exact this.1 (hand_inj i.hands this.2 hh e)

/-- Getting a handle on a block that has none. -/
theorem Inv.give {fl : List Nat} {w : World} (i : Inv fl w) {h : Handle} (hn : ∀ h' ∈ w.handles, h'.addr ≠ h.addr) {b : Blk} (hb : b ∈ w.heap)
    (e : b.addr = h.addr) (hv : h.kind ≠ .uninit → b.val.isSome) (hu : h.kind = .uninit → b.val = none) : Inv fl (w.give h) :=
  { addrs := i.addrs
    hands := by
      simp only [World.give, List.map_cons, List.nodup_cons, List.mem_map, not_exists, not_and]
      exact ⟨fun h' hh' e => hn h' hh' e, i.hands⟩
    live := by
      intro h' hh'
      rcases List.mem_cons.mp hh' with rfl | hh'
      · exact ⟨b, hb, e, hv, hu⟩
      · exact i.live h' hh'
    alloc := i.alloc, vals := i.vals, nodup := i.nodup, allocs := i.allocs, nodupA := i.nodupA }

/-- A new block, with a value on its way or none. -/
theorem Inv.put {fl : List Nat} {w : World} {p a : Nat} {v : Option Nat} (i : Inv (v.toList ++ fl) w) (hp : w.vacant p = true) (ha : a ∈ w.allocs) :
    Inv fl (w.put p v a) :=
  { addrs := by
      simp only [World.put, List.map_cons, List.nodup_cons, List.mem_map, not_exists, not_and]
      exact ⟨fun b hb e => vacant_iff.mp hp b hb e, i.addrs⟩
    hands := i.hands
    live := fun h hh => by
      obtain ⟨b, hb, r⟩ := i.live h hh
      exact ⟨b, .tail _ hb, r⟩
    alloc := by
      intro b hb
      rcases List.mem_cons.mp hb with rfl | hb
      · rfl
      · exact i.alloc b hb
    vals := by
      intro x
      have h := i.vals x
      rw [List.count_append] at h
      simp only [World.put]
      rw [count_heap_cons]
      simp only
      omega
    nodup := i.nodup
    allocs := by
      intro x
      have h := i.allocs x
      have h2 := count_mem ha x
      simp only [World.put]
      rw [count_heap_cons]
      simp only [Option.toList_some]
      omega
    nodupA := i.nodupA }

/-- Freeing a block that has no handle; its value is on its way. -/
theorem Inv.free {fl : List Nat} {w : World} {p : Nat} (i : Inv fl w) {b : Blk} (hb : b ∈ w.heap) (e : b.addr = p)
    (hn : ∀ h ∈ w.handles, h.addr ≠ p) : ∃ a, b.alloc = some a ∧ w.free p = some { w with heap := w.heap.erase b, droppedA := a :: w.droppedA } ∧
      Inv (b.val.toList ++ fl) { w with heap := w.heap.erase b, droppedA := a :: w.droppedA } := by
  obtain ⟨a, ha⟩ := Option.isSome_iff_exists.mp (i.alloc b hb)
  refine ⟨a, ha, ?_, ?_⟩
  · unfold World.free
    subst e
    rw [at_eq i.addrs hb]
    simp only [ha]
  · exact
    { addrs := nodup_map_erase _ i.addrs b
      hands := i.hands
      live := fun h hh => by
        obtain ⟨c, hc, ec, r⟩ := i.live h hh
        refine ⟨c, (mem_erase_blk i.addrs).mpr ⟨?_, hc⟩, ec, r⟩
        rintro rfl
        exact hn h hh (ec.symm.trans e)
      alloc := fun c hc => i.alloc c (List.mem_of_mem_erase hc)
      vals := fun x => by
        have h := i.vals x
        have h2 := count_heap hb (·.val) x
        rw [List.count_append]
        simp only
        omega
      nodup := i.nodup
      allocs := fun x => by
        have h := i.allocs x
        have h2 := count_heap hb (·.alloc) x
        simp only [ha, Option.toList_some] at h2
        simp only
        rw [count_cons' w.droppedA]
        omega
      nodupA := i.nodupA }

/-- Running the destructor of the value of a block that has no handle. -/
theorem Inv.dropInPlace {fl : List Nat} {w : World} {p : Nat} (i : Inv fl w) {b : Blk} (hb : b ∈ w.heap) (e : b.addr = p)
    (hn : ∀ h ∈ w.handles, h.addr ≠ p) {v : Nat} (hv : b.val = some v) :
    w.dropInPlace p = some { w with heap := { b with val := none } :: w.heap.erase b, dropped := v :: w.dropped } ∧
      Inv fl { w with heap := { b with val := none } :: w.heap.erase b, dropped := v :: w.dropped } := by
  constructor
  · unfold World.dropInPlace
    subst e
    rw [at_eq i.addrs hb]
    simp only [hv]
  · exact
    { addrs := by
        simp only [List.map_cons, List.nodup_cons, List.mem_map, not_exists, not_and]
        refine ⟨fun c hc ec => ?_, nodup_map_erase _ i.addrs b⟩
        have := (mem_erase_blk i.addrs).mp hc
        exact this.1 (addr_inj i.addrs this.2 hb ec)
      hands := i.hands
      live := fun h hh => by
        obtain ⟨c, hc, ec, r⟩ := i.live h hh
        refine ⟨c, .tail _ ((mem_erase_blk i.addrs).mpr ⟨?_, hc⟩), ec, r⟩
        rintro rfl
        exact hn h hh (ec.symm.trans e)
      alloc := fun c hc => by
        rcases List.mem_cons.mp hc with rfl | hc
        · exact i.alloc b hb
        · exact i.alloc c (List.mem_of_mem_erase hc)
      vals := fun x => by
        have h := i.vals x
        have h2 := count_heap hb (·.val) x
        simp only [hv, Option.toList_some] at h2
        simp only
        rw [count_heap_cons, count_cons' w.dropped]
        simp only [Option.toList_none, List.count_nil]
        omega
      nodup := i.nodup
      allocs := fun x => by
        have h := i.allocs x
        have h2 := count_heap hb (·.alloc) x
        simp only
        rw [count_heap_cons]
        simp only
        omega
      nodupA := i.nodupA }

/-- `into_inner` on a block that has no handle. -/
theorem Inv.intoInner {fl : List Nat} {w : World} {p : Nat} (i : Inv fl w) {b : Blk} (hb : b ∈ w.heap) (e : b.addr = p)
    (hn : ∀ h ∈ w.handles, h.addr ≠ p) {v : Nat} (hv : b.val = some v) :
    ∃ a, b.alloc = some a ∧ w.intoInner p = some (v, { w with heap := w.heap.erase b, droppedA := a :: w.droppedA }) ∧
      Inv (v :: fl) { w with heap := w.heap.erase b, droppedA := a :: w.droppedA } := by
  obtain ⟨a, ha, hf, i'⟩ := i.free hb e hn
  refine ⟨a, ha, ?_, by rw [hv] at i'; exact i'⟩
  unfold World.intoInner World.read
  rw [show w.at p = some b by rw [← e]; exact at_eq i.addrs hb]
  simp only [hv, hf]

/-- Values and allocators that move without a block. -/
theorem Inv.move {fl fl' : List Nat} {w : World} (i : Inv fl w) {vals allocs created createdA dropped droppedA : List Nat} {called : List (Nat × Nat)}
    (hc : created.Nodup) (hca : createdA.Nodup)
    (h1 : ∀ x, w.created.count x + vals.count x + dropped.count x + (called.map (·.1)).count x + fl'.count x =
      created.count x + w.vals.count x + w.dropped.count x + (w.called.map (·.1)).count x + fl.count x)
    (h2 : ∀ x, w.createdA.count x + allocs.count x + droppedA.count x = createdA.count x + w.allocs.count x + w.droppedA.count x) :
    Inv fl' { w with vals, allocs, created, createdA, dropped, droppedA, called } :=
  { addrs := i.addrs, hands := i.hands, live := i.live, alloc := i.alloc
    vals := fun x => by have := i.vals x; have := h1 x; simp only; omega
    nodup := hc
    allocs := fun x => by have := i.allocs x; have := h2 x; simp only; omega
    nodupA := hca }

theorem nodup_cons' {l : List Nat} {v : Nat} (h : l.Nodup) (hv : v ∉ l) : (v :: l).Nodup := List.nodup_cons.mpr ⟨hv, h⟩

/-- What an outcome guarantees. -/
def Good : Out → Prop
  | .ok w => Inv [] w
  | .unwound w => Inv [] w
  | .aborted w => Inv [] w
  | .ub => False
  | .invalid => True

theorem Inv.drop1 {fl : List Nat} {w : World} (i : Inv fl w) {v a : Nat} (hv : v ∈ w.vals) (ha : a ∈ w.allocs) :
    Inv fl { w with vals := w.vals.erase v, dropped := v :: w.dropped, allocs := w.allocs.erase a, droppedA := a :: w.droppedA } :=
  i.move i.nodup i.nodupA
    (fun x => by have := count_mem hv x; have := count_cons' w.dropped v x; omega)
    (fun x => by have := count_mem ha x; have := count_cons' w.droppedA a x; omega)

theorem construct_good {w : World} (i : Inv [] w) (c : Ctor) {a p : Nat} (ha : a ∈ w.allocs) (hp : w.vacant p = true) : Good (w.construct c a p) := by
  have hnone : ∀ h ∈ w.handles, h.addr ≠ p := by
    intro h hh e
    obtain ⟨b, hb, eb, _⟩ := i.live h hh
    exact vacant_iff.mp hp b hb (eb.trans e)
  unfold World.construct
  cases c with
  | init v =>
    simp only
    split
    · rename_i hv
      have i1 : Inv [v] { w with vals := w.vals.erase v } :=
        i.move i.nodup i.nodupA (fun x => by have := count_mem hv x; simp only [List.count_nil]; omega) (fun x => rfl)
      have i2 : Inv [] ({ w with vals := w.vals.erase v }.put p (some v) a) := Inv.put (v := some v) (fl := []) i1 hp ha
      exact i2.give (h := ⟨.typed, p⟩) hnone (b := ⟨p, some v, some a⟩) (.head _) rfl (fun _ => rfl) (fun h => by cases h)
    · trivial
  | fail =>
    have i2 : Inv [] (w.put p none a) := Inv.put (v := none) (fl := []) i hp ha
    exact i2.give (h := ⟨.uninit, p⟩) hnone (b := ⟨p, none, some a⟩) (.head _) rfl (fun h => absurd rfl h) (fun _ => rfl)
  | panic => exact Inv.put (v := none) (fl := []) i hp ha

theorem step_good {w : World} (i : Inv [] w) (op : Op) : Good (step w op) := by
  cases op with
  | create v =>
    simp only [step]
    split
    · trivial
    · rename_i hv
      exact i.move (nodup_cons' i.nodup hv) i.nodupA
        (fun x => by have := count_cons' w.created v x; have := count_cons' w.vals v x; omega) (fun x => rfl)
  | createAlloc a =>
    simp only [step]
    split
    · trivial
    · rename_i ha
      exact i.move i.nodup (nodup_cons' i.nodupA ha) (fun x => rfl)
        (fun x => by have := count_cons' w.createdA a x; have := count_cons' w.allocs a x; omega)
  | dropVal v panics =>
    simp only [step]
    split
    · rename_i hv
      have : Inv [] { w with vals := w.vals.erase v, dropped := v :: w.dropped } := i.move i.nodup i.nodupA
        (fun x => by have := count_mem hv x; have := count_cons' w.dropped v x; omega) (fun x => rfl)
      cases panics <;> exact this
    · trivial
  | dropAlloc a =>
    simp only [step]
    split
    · rename_i ha
      exact i.move i.nodup i.nodupA (fun x => rfl)
        (fun x => by have := count_mem ha x; have := count_cons' w.droppedA a x; omega)
    · trivial
  | newIn v a addr =>
    simp only [step]
    split
    · rename_i h
      cases addr with
      | none => exact i.drop1 h.1 h.2
      | some p =>
        simp only
        split
        · rename_i hp; exact construct_good i _ h.2 hp
        · trivial
    · trivial
  | tryNewIn v a addr =>
    simp only [step]
    split
    · rename_i h
      cases addr with
      | none => exact i
      | some p =>
        simp only
        split
        · rename_i hp; exact construct_good i _ h.2 hp
        · trivial
    · trivial
  | makeIn c a addr =>
    simp only [step]
    split
    · rename_i ha
      have hd : Inv [] { w with allocs := w.allocs.erase a, droppedA := a :: w.droppedA } := i.move i.nodup i.nodupA (fun x => rfl)
        (fun x => by have := count_mem ha x; have := count_cons' w.droppedA a x; omega)
      cases addr with
      | none =>
        cases c with
        | init v =>
          simp only
          split
          · rename_i hv; exact i.drop1 hv ha
          · trivial
        | fail => exact hd
        | panic => exact hd
      | some p =>
        simp only
        split
        · rename_i hp; exact construct_good i _ ha hp
        · trivial
    · trivial
  | tryMakeIn c a addr =>
    simp only [step]
    split
    · rename_i ha
      cases addr with
      | none =>
        cases c with
        | init v =>
          simp only
          split
          · exact i
          · trivial
        | fail => exact i
        | panic => exact i
      | some p =>
        simp only
        split
        · rename_i hp; exact construct_good i _ ha hp
        · trivial
    · trivial
  | intoInner p =>
    simp only [step]
    split
    · rename_i hh
      obtain ⟨b, hb, e, _, _, hv, _⟩ := i.block hh
      obtain ⟨v, hv⟩ := hv (by simp)
      obtain ⟨a, _, hi, i'⟩ := (i.take ⟨.typed, p⟩).intoInner (p := p) hb e (take_other i hh) hv
      rw [hi]
      exact i'.move i'.nodup i'.nodupA
        (fun x => by have := count_cons' w.vals v x; simp only [World.take, List.count_nil]; omega) (fun x => rfl)
    · trivial
  | drop p panics =>
    simp only [step]
    split
    · rename_i hh
      obtain ⟨b, hb, e, _, _, hv, _⟩ := i.block hh
      obtain ⟨v, hv⟩ := hv (by simp)
      obtain ⟨hd, i'⟩ := (i.take ⟨.typed, p⟩).dropInPlace (p := p) hb e (take_other i hh) hv
      rw [hd]
      simp only [orUb]
      split
      · exact i'
      · obtain ⟨a, _, hf, i''⟩ := i'.free (p := p) (b := { b with val := none }) (.head _) e (take_other i hh)
        rw [hf]
        exact i''
    · trivial
  | dropUninit p =>
    simp only [step]
    split
    · rename_i hh
      obtain ⟨b, hb, e, _, _, _, hv⟩ := i.block hh
      obtain ⟨a, _, hf, i''⟩ := (i.take ⟨.uninit, p⟩).free (p := p) hb e (take_other i hh)
      rw [hf]
      rw [hv rfl] at i''
      exact i''
    · trivial
  | intoRaw p =>
    simp only [step]
    split
    · rename_i hh
      obtain ⟨b, hb, e, _, _, hv, _⟩ := i.block hh
      obtain ⟨v, hv⟩ := hv (by simp)
      exact (i.take ⟨.typed, p⟩).give (h := ⟨.raw, p⟩) (take_other i hh) hb e (fun _ => by rw [hv]; rfl) (fun h => by cases h)
    · trivial
  | fromRaw p =>
    simp only [step]
    split
    · rename_i hh
      obtain ⟨b, hb, e, _, _, hv, _⟩ := i.block hh
      obtain ⟨v, hv⟩ := hv (by simp)
      exact (i.take ⟨.raw, p⟩).give (h := ⟨.typed, p⟩) (take_other i hh) hb e (fun _ => by rw [hv]; rfl) (fun h => by cases h)
    · trivial
  | replace p v =>
    simp only [step]
    split
    · rename_i hh
      obtain ⟨b, hb, e, hat, _, hv, _⟩ := i.block hh.1
      obtain ⟨u, hu⟩ := hv (by simp)
      simp only at hat
      rw [hat]
      simp only [hu]
      exact
      { addrs := by
          simp only [List.map_cons, List.nodup_cons, List.mem_map, not_exists, not_and]
          refine ⟨fun c hc ec => ?_, nodup_map_erase _ i.addrs b⟩
          have := (mem_erase_blk i.addrs).mp hc
          exact this.1 (addr_inj i.addrs this.2 hb ec)
        hands := i.hands
        live := fun h hh' => by
          obtain ⟨c, hc, ec, r1, r2⟩ := i.live h hh'
          by_cases hcb : c = b
          · subst hcb
            refine ⟨_, .head _, ec, fun _ => rfl, fun k => ?_⟩
            rw [hu] at r2
            exact absurd (r2 k) (by simp)
          · exact ⟨c, .tail _ ((mem_erase_blk i.addrs).mpr ⟨hcb, hc⟩), ec, r1, r2⟩
        alloc := fun c hc => by
          rcases List.mem_cons.mp hc with rfl | hc
          · exact i.alloc b hb
          · exact i.alloc c (List.mem_of_mem_erase hc)
        vals := fun x => by
          have h := i.vals x
          have h2 := count_heap hb (·.val) x
          have h3 := count_mem hh.2 x
          simp only [hu, Option.toList_some] at h2
          simp only
          rw [count_heap_cons, count_cons' _ u]
          simp only [Option.toList_some]
          omega
        nodup := i.nodup
        allocs := fun x => by
          have h := i.allocs x
          have h2 := count_heap hb (·.alloc) x
          simp only
          rw [count_heap_cons]
          simp only
          omega
        nodupA := i.nodupA }
    · trivial
  | clone p v a addr =>
    simp only [step]
    split
    · rename_i hh
      obtain ⟨b, hb, e, hat, ⟨a0, ha0⟩, hv, _⟩ := i.block hh
      obtain ⟨u, hu⟩ := hv (by simp)
      obtain ⟨ba, bv, bal⟩ := b
      simp only at hu ha0 hat
      subst hu ha0
      rw [hat]
      simp only
      cases v with
      | none => exact i
      | some v =>
        simp only
        split
        · trivial
        · rename_i hvc
          cases a with
          | none =>
            exact i.move (nodup_cons' i.nodup hvc) i.nodupA
              (fun x => by have := count_cons' w.created v x; have := count_cons' w.dropped v x; omega) (fun x => rfl)
          | some a =>
            simp only
            split
            · trivial
            · rename_i hac
              cases addr with
              | none =>
                exact i.move (nodup_cons' i.nodup hvc) (nodup_cons' i.nodupA hac)
                  (fun x => by have := count_cons' w.created v x; have := count_cons' w.dropped v x; omega)
                  (fun x => by have := count_cons' w.createdA a x; have := count_cons' w.droppedA a x; omega)
              | some q =>
                simp only
                split
                · rename_i hq
                  have i1 : Inv [v] { w with created := v :: w.created, createdA := a :: w.createdA, allocs := a :: w.allocs } :=
                    i.move (nodup_cons' i.nodup hvc) (nodup_cons' i.nodupA hac)
                      (fun x => by have := count_cons' w.created v x; simp only [List.count_nil]; omega)
                      (fun x => by have := count_cons' w.createdA a x; have := count_cons' w.allocs a x; omega)
                  have i2 := Inv.put (v := some v) (fl := []) (p := q) (a := a) i1 hq (.head _)
                  have hnone : ∀ h ∈ w.handles, h.addr ≠ q := by
                    intro h hh e
                    obtain ⟨b, hb, eb, _⟩ := i.live h hh
                    exact vacant_iff.mp hq b hb (eb.trans e)
                  have i3 := i2.give (h := ⟨.typed, q⟩) hnone (b := ⟨q, some v, some a⟩) (.head _) rfl (fun _ => rfl) (fun h => by cases h)
                  simpa only [Good, World.put, World.give, List.erase_cons_head] using i3
                · trivial
    · trivial
  | anonymize p =>
    simp only [step]
    split
    · rename_i hh
      obtain ⟨b, hb, e, _, _, hv, _⟩ := i.block hh
      obtain ⟨v, hv⟩ := hv (by simp)
      exact (i.take ⟨.typed, p⟩).give (h := ⟨.dyn, p⟩) (take_other i hh) hb e (fun _ => by rw [hv]; rfl) (fun h => by cases h)
    · trivial
  | dynDrop p panics =>
    simp only [step]
    split
    · rename_i hh
      obtain ⟨b, hb, e, _, _, hv, _⟩ := i.block hh
      obtain ⟨v, hv⟩ := hv (by simp)
      obtain ⟨hd, i'⟩ := (i.take ⟨.dyn, p⟩).dropInPlace (p := p) hb e (take_other i hh) hv
      rw [hd]
      simp only [orUb]
      split
      · exact i'
      · obtain ⟨a, _, hf, i''⟩ := i'.free (p := p) (b := { b with val := none }) (.head _) e (take_other i hh)
        rw [hf]
        exact i''
    · trivial
  | callOnce p arg result =>
    simp only [step]
    split
    · rename_i hh
      obtain ⟨b, hb, e, _, _, hv, _⟩ := i.block hh
      obtain ⟨v, hv⟩ := hv (by simp)
      obtain ⟨a, _, hi, i'⟩ := (i.take ⟨.dyn, p⟩).intoInner (p := p) hb e (take_other i hh) hv
      rw [hi]
      simp only
      cases result with
      | none =>
        exact i'.move i'.nodup i'.nodupA
          (fun x => by have := count_cons' (w.called.map (·.1)) v x; simp only [World.take, List.map_cons, List.count_nil]; omega) (fun x => rfl)
      | some r =>
        simp only
        split
        · trivial
        · rename_i hr
          exact i'.move (nodup_cons' i'.nodup hr) i'.nodupA
            (fun x => by
              have := count_cons' (w.called.map (·.1)) v x; have := count_cons' w.vals r x; have := count_cons' w.created r x
              simp only [World.take, List.map_cons, List.count_nil]; omega) (fun x => rfl)
    · trivial

theorem inv_empty : Inv [] .empty :=
  ⟨List.nodup_nil, List.nodup_nil, fun _ h => by simp [World.empty] at h, fun _ h => by simp [World.empty] at h, fun _ => rfl, List.nodup_nil,
    fun _ => rfl, List.nodup_nil⟩

theorem reach_inv {w : World} (h : Reach w) : Inv [] w := by
  induction h with
  | empty => exact inv_empty
  | @ok w w' op _ e ih => have := step_good ih op; rw [e] at this; exact this
  | @unwound w w' op _ e ih => have := step_good ih op; rw [e] at this; exact this

/-! ### Theorems -/

/-- **C67.** No program that uses boxes and boxed closures has undefined behaviour: no value is read after it was moved or dropped, no block is used
after it was freed or freed twice, whatever user code unwinds. -/
theorem C67_no_ub (w : World) (h : Reach w) (op : Op) : step w op ≠ .ub := by
  intro e
  have := step_good (reach_inv h) op
  rw [e] at this
  exact this

/-- **C67.** Every value that was made is in exactly one place: the program has it, a block holds it, its destructor ran once, or it was
called by value. -/
theorem C67_values (w : World) (h : Reach w) : (places w).Perm w.created ∧ (places w).Nodup := by
  have i := reach_inv h
  have hp : (places w).Perm w.created := by
    rw [List.perm_iff_count]
    intro x
    have := i.vals x
    simp only [List.count_nil, Nat.add_zero] at this
    rw [this, places, List.count_append, List.count_append, List.count_append]
  exact ⟨hp, hp.nodup_iff.mpr i.nodup⟩

/-- **C67.** The same of allocator handles: none is dropped twice, none is used after it was dropped. -/
theorem C67_allocators (w : World) (h : Reach w) : (placesA w).Perm w.createdA ∧ (placesA w).Nodup := by
  have i := reach_inv h
  have hp : (placesA w).Perm w.createdA := by
    rw [List.perm_iff_count]
    intro x
    rw [i.allocs x, placesA, List.count_append, List.count_append]
  exact ⟨hp, hp.nodup_iff.mpr i.nodupA⟩

/-- **C67.** What the program holds is allocated and initialised, and two handles never share a block. -/
theorem C67_handles (w : World) (h : Reach w) :
    (w.handles.map (·.addr)).Nodup ∧
    ∀ k ∈ w.handles, ∃ b ∈ w.heap, b.addr = k.addr ∧ b.alloc.isSome ∧ (k.kind ≠ .uninit → b.val.isSome) := by
  have i := reach_inv h
  refine ⟨i.hands, fun k hk => ?_⟩
  obtain ⟨b, hb, e, hv, _⟩ := i.live k hk
  exact ⟨b, hb, e, i.alloc b hb, hv⟩

/-- `into_inner` gives the value back and frees the block. -/
theorem C67_into_inner (w : World) (h : Reach w) (p : Nat) (hh : ⟨.typed, p⟩ ∈ w.handles) :
    ∃ b v a, b ∈ w.heap ∧ b = ⟨p, some v, some a⟩ ∧ step w (.intoInner p) =
      .ok { w with handles := w.handles.erase ⟨.typed, p⟩, heap := w.heap.erase b, vals := v :: w.vals, droppedA := a :: w.droppedA } := by
  have i := reach_inv h
  obtain ⟨b, hb, e, _, _, hv, _⟩ := i.block hh
  obtain ⟨v, hv⟩ := hv (by simp)
  obtain ⟨a, ha, hi, i'⟩ := (i.take ⟨.typed, p⟩).intoInner (p := p) hb e (take_other i hh) hv
  refine ⟨b, v, a, hb, ?_, ?_⟩
  · cases b; simp_all
  · simp only [step, hh, if_true, hi]
    rfl

/-- **C67.** Dropping a box whose value's destructor returns runs that destructor once, frees the block and drops the allocator handle. -/
theorem C67_drop (w : World) (h : Reach w) (p : Nat) (hh : ⟨.typed, p⟩ ∈ w.handles) :
    ∃ b v a, b ∈ w.heap ∧ b = ⟨p, some v, some a⟩ ∧ step w (.drop p false) =
      .ok { w with handles := w.handles.erase ⟨.typed, p⟩, heap := w.heap.erase b, dropped := v :: w.dropped, droppedA := a :: w.droppedA } := by
  have i := reach_inv h
  obtain ⟨b, hb, e, _, _, hv, _⟩ := i.block hh
  obtain ⟨v, hv⟩ := hv (by simp)
  obtain ⟨hd, i'⟩ := (i.take ⟨.typed, p⟩).dropInPlace (p := p) hb e (take_other i hh) hv
  obtain ⟨a, ha, hf, _⟩ := i'.free (p := p) (b := { b with val := none }) (.head _) e (take_other i hh)
  refine ⟨b, v, a, hb, ?_, ?_⟩
  · cases b; simp_all
  · simp only [step, hh, if_true, hd, orUb, Bool.false_eq_true, if_false, hf, List.erase_cons_head]
    rfl

/-- **C67.** Dropping the trait object of a box does what dropping the box does. -/
theorem C67_dyn_drop (w : World) (h : Reach w) (p : Nat) (hh : ⟨.dyn, p⟩ ∈ w.handles) :
    ∃ b v a, b ∈ w.heap ∧ b = ⟨p, some v, some a⟩ ∧ step w (.dynDrop p false) =
      .ok { w with handles := w.handles.erase ⟨.dyn, p⟩, heap := w.heap.erase b, dropped := v :: w.dropped, droppedA := a :: w.droppedA } := by
  have i := reach_inv h
  obtain ⟨b, hb, e, _, _, hv, _⟩ := i.block hh
  obtain ⟨v, hv⟩ := hv (by simp)
  obtain ⟨hd, i'⟩ := (i.take ⟨.dyn, p⟩).dropInPlace (p := p) hb e (take_other i hh) hv
  obtain ⟨a, ha, hf, _⟩ := i'.free (p := p) (b := { b with val := none }) (.head _) e (take_other i hh)
  refine ⟨b, v, a, hb, ?_, ?_⟩
  · cases b; simp_all
  · simp only [step, hh, if_true, hd, orUb, Bool.false_eq_true, if_false, hf, List.erase_cons_head]
    rfl

/-- **C67.** Calling a boxed `FnOnce` calls the closure that was boxed, once, with the arguments that were given; the block is freed, the closure
is not dropped by the trait object, and the result is given to the caller. -/
theorem C67_call_once (w : World) (h : Reach w) (p arg r : Nat) (hh : ⟨.dyn, p⟩ ∈ w.handles) (hr : r ∉ w.created) :
    ∃ b f a, b ∈ w.heap ∧ b = ⟨p, some f, some a⟩ ∧ step w (.callOnce p arg (some r)) =
      .ok { w with handles := w.handles.erase ⟨.dyn, p⟩, heap := w.heap.erase b, called := (f, arg) :: w.called, droppedA := a :: w.droppedA,
                   vals := r :: w.vals, created := r :: w.created } := by
  have i := reach_inv h
  obtain ⟨b, hb, e, _, _, hv, _⟩ := i.block hh
  obtain ⟨v, hv⟩ := hv (by simp)
  obtain ⟨a, ha, hi, i'⟩ := (i.take ⟨.dyn, p⟩).intoInner (p := p) hb e (take_other i hh) hv
  refine ⟨b, v, a, hb, ?_, ?_⟩
  · cases b; simp_all
  · have hr' : r ∉ (w.take ⟨.dyn, p⟩).created := hr
    simp only [step, hh, if_true, hi, hr', if_false]
    rfl

/-- **C67.** Allocation failures lose nothing: `try_new_in` returns the value and the allocator, `new_in` unwinds and drops both. -/
theorem C67_alloc_fails (w : World) (v a : Nat) (hv : v ∈ w.vals) (ha : a ∈ w.allocs) :
    step w (.tryNewIn v a none) = .ok w ∧
    step w (.newIn v a none) = .unwound { w with vals := w.vals.erase v, dropped := v :: w.dropped, allocs := w.allocs.erase a, droppedA := a :: w.droppedA } := by
  simp [step, hv, ha]

/-- Whether the user code of an operation unwinds between the allocation and the construction of a box, or in the destructor of a boxed
value. -/
def leaks : Op → Bool
  | .drop _ panics => panics
  | .makeIn .panic _ (some _) => true
  | .tryMakeIn .panic _ (some _) => true
  | _ => false

theorem owned_erase {w : World} (i : Inv [] w) (o : Owned w) {k : Handle} {b : Blk} (hk : k ∈ w.handles) (hb : b ∈ w.heap) (e : b.addr = k.addr) :
    ∀ c ∈ w.heap.erase b, ∃ h ∈ w.handles.erase k, h.addr = c.addr := by
  intro c hc
  have hc' := (mem_erase_blk i.addrs).mp hc
  obtain ⟨h, hh, eh⟩ := o c hc'.2
  refine ⟨h, (mem_erase_hand i.hands).mpr ⟨?_, hh⟩, eh⟩
  rintro rfl
  exact hc'.1 (addr_inj i.addrs hc'.2 hb (eh.symm.trans e.symm))

theorem owned_swap {w : World} (o : Owned w) {k k' : Handle} (e : k'.addr = k.addr) : Owned ((w.take k).give k') := by
  intro b hb
  obtain ⟨h, hh, eh⟩ := o b hb
  by_cases hk : h = k
  · subst hk; exact ⟨k', .head _, e.trans eh⟩
  · exact ⟨h, .tail _ ((List.mem_erase_of_ne hk).mpr hh), eh⟩

theorem construct_owned {w w' : World} (o : Owned w) {c : Ctor} {a p : Nat} (h : w.construct c a p = .ok w') : Owned w' := by
  have cons : ∀ (v : Option Nat) (k : Kind) (w0 : World), w0.heap = w.heap → w0.handles = w.handles → Owned ((w0.put p v a).give ⟨k, p⟩) := by
    intro v k w0 h1 h2 b hb
    simp only [World.give, World.put, List.mem_cons] at hb ⊢
    rcases hb with rfl | hb
    · exact ⟨_, .inl rfl, rfl⟩
    · rw [h1] at hb
      obtain ⟨h, hh, eh⟩ := o b hb
      exact ⟨h, .inr (by rw [h2]; exact hh), eh⟩
  unfold World.construct at h
  cases c with
  | init v =>
    simp only at h
    split at h
    · cases h; exact cons _ _ _ rfl rfl
    · cases h
  | fail => cases h; exact cons _ _ _ rfl rfl
  | panic => cases h

/-- **C67 (partial).** Blocks are leaked only by destructors and constructors that unwind (see `C67_drop_leak_refuted`, `C67_make_leak`): any other operation, if it returns
or unwinds, leaves every block owned by the program. -/
theorem C67_no_leak_partial (w w' : World) (h : Reach w) (o : Owned w) (op : Op) (hop : leaks op = false)
    (hs : step w op = .ok w' ∨ step w op = .unwound w') : Owned w' := by
  have i := reach_inv h
  have keep : ∀ w0 : World, w0.heap = w.heap → w0.handles = w.handles → Owned w0 := by
    intro w0 h1 h2 b hb
    rw [h1] at hb; rw [h2]; exact o b hb
  cases op with
  | create v =>
    simp only [step] at hs
    split at hs <;> rcases hs with hs | hs <;> cases hs
    exact keep _ rfl rfl
  | createAlloc a =>
    simp only [step] at hs
    split at hs <;> rcases hs with hs | hs <;> cases hs
    exact keep _ rfl rfl
  | dropVal v panics =>
    simp only [step] at hs
    split at hs
    · cases panics <;> rcases hs with hs | hs <;> cases hs <;> exact keep _ rfl rfl
    · rcases hs with hs | hs <;> cases hs
  | dropAlloc a =>
    simp only [step] at hs
    split at hs <;> rcases hs with hs | hs <;> cases hs
    exact keep _ rfl rfl
  | newIn v a addr =>
    simp only [step] at hs
    split at hs
    · rename_i hva
      cases addr with
      | none => rcases hs with hs | hs <;> cases hs; exact keep _ rfl rfl
      | some p =>
        simp only at hs
        split at hs
        · rcases hs with hs | hs
          · exact construct_owned o hs
          · simp [World.construct, hva.1] at hs
        · rcases hs with hs | hs <;> cases hs
    · rcases hs with hs | hs <;> cases hs
  | tryNewIn v a addr =>
    simp only [step] at hs
    split at hs
    · rename_i hva
      cases addr with
      | none => rcases hs with hs | hs <;> cases hs; exact o
      | some p =>
        simp only at hs
        split at hs
        · rcases hs with hs | hs
          · exact construct_owned o hs
          · simp [World.construct, hva.1] at hs
        · rcases hs with hs | hs <;> cases hs
    · rcases hs with hs | hs <;> cases hs
  | makeIn c a addr =>
    simp only [step] at hs
    split at hs
    · cases addr with
      | none =>
        cases c with
        | init v =>
          simp only at hs
          split at hs <;> rcases hs with hs | hs <;> cases hs
          exact keep _ rfl rfl
        | fail => rcases hs with hs | hs <;> cases hs; exact keep _ rfl rfl
        | panic => rcases hs with hs | hs <;> cases hs; exact keep _ rfl rfl
      | some p =>
        simp only at hs
        split at hs
        · rcases hs with hs | hs
          · exact construct_owned o hs
          · cases c with
            | init v => simp only [World.construct] at hs; split at hs <;> cases hs
            | fail => cases hs
            | panic => cases hop
        · rcases hs with hs | hs <;> cases hs
    · rcases hs with hs | hs <;> cases hs
  | tryMakeIn c a addr =>
    simp only [step] at hs
    split at hs
    · cases addr with
      | none =>
        cases c with
        | init v =>
          simp only at hs
          split at hs <;> rcases hs with hs | hs <;> cases hs
          exact keep _ rfl rfl
        | fail => rcases hs with hs | hs <;> cases hs; exact keep _ rfl rfl
        | panic => rcases hs with hs | hs <;> cases hs; exact keep _ rfl rfl
      | some p =>
        simp only at hs
        split at hs
        · rcases hs with hs | hs
          · exact construct_owned o hs
          · cases c with
            | init v => simp only [World.construct] at hs; split at hs <;> cases hs
            | fail => cases hs
            | panic => cases hop
        · rcases hs with hs | hs <;> cases hs
    · rcases hs with hs | hs <;> cases hs
  | intoInner p =>
    by_cases hh : ⟨.typed, p⟩ ∈ w.handles
    · obtain ⟨b, v, a, hb, eb, hi⟩ := C67_into_inner w h p hh
      rw [hi] at hs
      rcases hs with hs | hs <;> cases hs
      exact owned_erase i o hh hb (by rw [eb])
    · simp only [step, hh, if_false] at hs
      rcases hs with hs | hs <;> cases hs
  | drop p panics =>
    by_cases hh : ⟨.typed, p⟩ ∈ w.handles
    · cases panics with
      | true => cases hop
      | false =>
        obtain ⟨b, v, a, hb, eb, hi⟩ := C67_drop w h p hh
        rw [hi] at hs
        rcases hs with hs | hs <;> cases hs
        exact owned_erase i o hh hb (by rw [eb])
    · simp only [step, hh, if_false] at hs
      rcases hs with hs | hs <;> cases hs
  | dropUninit p =>
    by_cases hh : ⟨.uninit, p⟩ ∈ w.handles
    · obtain ⟨b, hb, e, _, _, _, hv⟩ := i.block hh
      obtain ⟨a, _, hf, i''⟩ := (i.take ⟨.uninit, p⟩).free (p := p) hb e (take_other i hh)
      simp only [step, hh, if_true, hf, orUb] at hs
      rcases hs with hs | hs <;> cases hs
      exact owned_erase i o hh hb e
    · simp only [step, hh, if_false] at hs
      rcases hs with hs | hs <;> cases hs
  | intoRaw p =>
    simp only [step] at hs
    split at hs <;> rcases hs with hs | hs <;> cases hs
    exact owned_swap o rfl
  | fromRaw p =>
    simp only [step] at hs
    split at hs <;> rcases hs with hs | hs <;> cases hs
    exact owned_swap o rfl
  | replace p v =>
    simp only [step] at hs
    split at hs
    · rename_i hh
      obtain ⟨b, hb, e, hat, _, hv, _⟩ := i.block hh.1
      obtain ⟨u, hu⟩ := hv (by simp)
      simp only at hat
      simp only [hat, hu] at hs
      rcases hs with hs | hs <;> cases hs
      intro c hc
      rcases List.mem_cons.mp hc with rfl | hc
      · exact ⟨_, hh.1, e.symm⟩
      · exact o c (List.mem_of_mem_erase hc)
    · rcases hs with hs | hs <;> cases hs
  | clone p v a addr =>
    simp only [step] at hs
    split at hs
    · rename_i hh
      obtain ⟨b, hb, e, hat, ⟨a0, ha0⟩, hv, _⟩ := i.block hh
      obtain ⟨u, hu⟩ := hv (by simp)
      obtain ⟨ba, bv, bal⟩ := b
      simp only at hu ha0 hat
      subst hu ha0
      simp only [hat] at hs
      cases v with
      | none => rcases hs with hs | hs <;> cases hs; exact o
      | some v =>
        simp only at hs
        split at hs
        · rcases hs with hs | hs <;> cases hs
        · cases a with
          | none => rcases hs with hs | hs <;> cases hs; exact keep _ rfl rfl
          | some a =>
            simp only at hs
            split at hs
            · rcases hs with hs | hs <;> cases hs
            · cases addr with
              | none => rcases hs with hs | hs <;> cases hs; exact keep _ rfl rfl
              | some q =>
                simp only at hs
                split at hs <;> rcases hs with hs | hs <;> cases hs
                intro c hc
                simp only [World.give, List.mem_cons] at hc ⊢
                rcases hc with rfl | hc
                · exact ⟨_, .inl rfl, rfl⟩
                · obtain ⟨h, hh, eh⟩ := o c hc
                  exact ⟨h, .inr hh, eh⟩
    · rcases hs with hs | hs <;> cases hs
  | anonymize p =>
    simp only [step] at hs
    split at hs <;> rcases hs with hs | hs <;> cases hs
    exact owned_swap o rfl
  | dynDrop p panics =>
    by_cases hh : ⟨.dyn, p⟩ ∈ w.handles
    · cases panics with
      | true =>
        obtain ⟨b, hb, e, _, _, hv, _⟩ := i.block hh
        obtain ⟨v, hv⟩ := hv (by simp)
        obtain ⟨hd, i'⟩ := (i.take ⟨.dyn, p⟩).dropInPlace (p := p) hb e (take_other i hh) hv
        simp only [step, hh, if_true, hd, orUb] at hs
        rcases hs with hs | hs <;> cases hs
      | false =>
        obtain ⟨b, v, a, hb, eb, hi⟩ := C67_dyn_drop w h p hh
        rw [hi] at hs
        rcases hs with hs | hs <;> cases hs
        exact owned_erase i o hh hb (by rw [eb])
    · simp only [step, hh, if_false] at hs
      rcases hs with hs | hs <;> cases hs
  | callOnce p arg result =>
    by_cases hh : ⟨.dyn, p⟩ ∈ w.handles
    · obtain ⟨b, hb, e, _, _, hv, _⟩ := i.block hh
      obtain ⟨v, hv⟩ := hv (by simp)
      obtain ⟨a, ha, hi, i'⟩ := (i.take ⟨.dyn, p⟩).intoInner (p := p) hb e (take_other i hh) hv
      simp only [step, hh, if_true, hi] at hs
      cases result with
      | none => rcases hs with hs | hs <;> cases hs
      | some r =>
        simp only at hs
        split at hs <;> rcases hs with hs | hs <;> cases hs
        exact owned_erase i o hh hb e
    · simp only [step, hh, if_false] at hs
      rcases hs with hs | hs <;> cases hs

/-- A box that holds the value 1, with the allocator 2, at the address 64. -/
def exWorld : World := ⟨[⟨64, some 1, some 2⟩], [⟨.typed, 64⟩], [], [], [1], [2], [], [], []⟩

theorem exReach : Reach exWorld :=
  .ok (op := .newIn 1 2 (some 64)) (.ok (op := .createAlloc 2) (.ok (op := .create 1) .empty rfl) rfl) rfl

example : Owned exWorld ∧ places exWorld = [1] ∧ placesA exWorld = [2] := ⟨by simp [Owned, exWorld], rfl, rfl⟩

/-- The box becomes the trait object of a closure, which is called with 7 and returns 3. -/
example : ∃ w, step exWorld (.anonymize 64) = .ok w ∧
    step w (.callOnce 64 7 (some 3)) = .ok ⟨[], [], [3], [], [3, 1], [2], [], [2], [(1, 7)]⟩ := ⟨_, rfl, rfl⟩

/-- **C67, refuted part.** When the destructor of the value unwinds, dropping the box leaks its block and its allocator handle: nothing
owns them any more.  (Rust's own `Box` frees its block in this case.) -/
theorem C67_drop_leak_refuted (w : World) (h : Reach w) (p : Nat) (hh : ⟨.typed, p⟩ ∈ w.handles) :
    ∃ w' a, step w (.drop p true) = .unwound w' ∧ ⟨p, none, some a⟩ ∈ w'.heap ∧ ∀ k ∈ w'.handles, k.addr ≠ p := by
  have i := reach_inv h
  obtain ⟨b, hb, e, _, ⟨a, ha⟩, hv, _⟩ := i.block hh
  obtain ⟨v, hv⟩ := hv (by simp)
  obtain ⟨hd, i'⟩ := (i.take ⟨.typed, p⟩).dropInPlace (p := p) hb e (take_other i hh) hv
  refine ⟨{ w.take ⟨.typed, p⟩ with heap := { b with val := none } :: (w.take ⟨.typed, p⟩).heap.erase b, dropped := v :: (w.take ⟨.typed, p⟩).dropped },
    a, by simp only [step, hh, if_true, hd, orUb], ?_, take_other i hh⟩
  simp only [List.mem_cons]
  left
  cases b; simp_all

example : ⟨.typed, 64⟩ ∈ exWorld.handles := .head _

/-- **C67.** A constructor that unwinds leaks the block and the allocator handle, as the documentation says (boxed.rs:77). -/
theorem C67_make_leak (w : World) (a p : Nat) (ha : a ∈ w.allocs) (hp : w.vacant p = true) :
    step w (.tryMakeIn .panic a (some p)) = .unwound { w with heap := ⟨p, none, some a⟩ :: w.heap, allocs := w.allocs.erase a } := by
  simp only [step, ha, if_true, hp, World.construct, World.put]

end Verif.Props.Box
