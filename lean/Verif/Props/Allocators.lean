import Verif.Alloc.Rust
import Verif.Alloc.Libc
/-! C48: the bundled allocators keep the contract of `IAlloc`. -/
namespace Verif.Props.Allocators
open Verif.Alloc

/-- A program starts with nothing allocated. -/
def rStart : RSt := ⟨⟨[], fun _ => .data 0⟩, []⟩
/-- A program starts with nothing allocated. -/
def lStart : LSt := ⟨⟨[], fun _ => .data 0⟩, []⟩

theorem rStart_inv : RInv rStart :=
  ⟨⟨List.Pairwise.nil, fun _ h => by simp [rStart] at h⟩, List.Pairwise.nil, fun _ h => by simp [rStart] at h⟩
theorem lStart_inv : LInv lStart :=
  ⟨⟨List.Pairwise.nil, fun _ h => by simp [lStart] at h⟩, List.Pairwise.nil, fun _ h => by simp [lStart] at h⟩

/-- A request `RustAlloc` serves well: a power of two as alignment, a size that leaves room for the bookkeeping, and either an
alignment of at most 32 or a size that is a multiple of the alignment. -/
def Served (n a : Nat) : Prop := (∃ k, a = 2 ^ k) ∧ 32 + n + max 8 a ≤ 2 ^ 64 ∧ (a ≤ 32 ∨ a ∣ n)

/-- The requests of a program, and answers of the global allocators other than null. -/
def RGoodAct : RAct → Prop
  | .alloc _ l ans _ => Served l.size l.align ∧ ans ≠ none
  | .realloc c n ans _ => (c.align ≤ 32 ∨ c.align ∣ n) ∧ 32 + n + 2 * max 8 c.align ≤ 2 ^ 63 ∧ ans ≠ none
  | _ => True

theorem RGoodAct.good {a : RAct} (h : RGoodAct a) : rActGood a := by
  cases a with
  | alloc bin l ans junk => exact ⟨⟨h.1.1, h.1.2.1, h.1.2.2⟩, h.2⟩
  | realloc c n ans junk => exact h
  | free c => trivial
  | write c off v => trivial

/-- C48 (`RustAlloc`): in any program of any number of binaries that allocate, reallocate, free and write, with arbitrary global
allocators, no step is undefined.  In particular each block goes back to the allocator of the binary that made it, with the
layout it was made with, whichever binary frees it.  Each pointer is aligned as requested, its bytes are inside one live
block of that binary, and no two allocations overlap.

Partial: null answers of the global allocator are excluded (`C48_rust_out_of_memory_refuted`), and so are the requests that are
not `Served` (`C48_rust_small_refuted`, `C48_rust_overflow_refuted`, `C48_rust_huge_realloc_refuted`). -/
theorem C48_rust_partial (acts : List RAct) (hf : ∀ a ∈ acts, RGoodAct a) :
    ∃ s, rRun rStart acts = some s ∧
      (∀ c ∈ s.live, 0 < c.ptr ∧ c.ptr % c.align = 0 ∧
        ∃ b ∈ s.heap.blks, b.owner = c.bin ∧ b.base ≤ c.ptr ∧ c.ptr + c.size ≤ b.base + b.size) ∧
      (∀ c ∈ s.live, ∀ d ∈ s.live, c ≠ d → c.ptr + c.size ≤ d.ptr ∨ d.ptr + d.size ≤ c.ptr) := by
  obtain ⟨s, hs, hi⟩ := rRun_inv acts rStart rStart_inv fun a ha => (hf a ha).good
  refine ⟨s, hs, fun c hc => ?_, fun c hc d hd hne => ?_⟩
  · obtain ⟨p, f1, f2⟩ := hi.each c hc
    have hr := rSz_room f2.good.pow f2.good.wrap f2.good.fit
    have hb := hi.ok.each _ f2.hdr.mem
    have hm : p % rAl c.align = 0 := hb.2.2.2
    have hle : c.align ≤ rAl c.align := by unfold rAl; omega
    have hle2 : rAl c.align ≤ rOff c.align := by unfold rOff; omega
    have hd := pow2_dvd f2.good.pow (rAl_pow2 f2.good.pow) hle
    have ho : rAl c.align ∣ rOff c.align := by
      refine pow2_dvd (rAl_pow2 f2.good.pow) ?_ hle2
      unfold rOff
      rcases Nat.le_total (rAl c.align) 32 with h | h
      · rw [Nat.max_eq_right h]; exact ⟨5, rfl⟩
      · rw [Nat.max_eq_left h]; exact rAl_pow2 f2.good.pow
    refine ⟨?_, ?_, _, f2.hdr.mem, rfl, ?_, ?_⟩
    · have := f2.pos; omega
    · rw [f1]; exact mod_of_dvd_mod hd (add_mod_zero hm (Nat.mod_eq_zero_of_dvd ho))
    · show p ≤ c.ptr; omega
    · show _ ≤ p + rSz c.size c.align; omega
  · obtain ⟨p, f1, f2⟩ := hi.each c hc
    obtain ⟨q, g1, g2⟩ := hi.each d hd
    have r1 := rSz_room f2.good.pow f2.good.wrap f2.good.fit
    have r2 := rSz_room g2.good.pow g2.good.wrap g2.good.fit
    have hap : Apart (rBlk p c.size c.align c.bin) (rBlk q d.size d.align d.bin) :=
      pairwise_mem (fun h => h.symm) hi.ok.apart _ f2.hdr.mem _ g2.hdr.mem (hi.other hd hc hne g1 f1)
    rcases hap with h | h <;> simp only [rBlk] at h
    · left; omega
    · right; omega

/-- Two binaries: binary 1 allocates, binary 2 grows the block and it moves, then it is freed. -/
def rDemo : List RAct :=
  [.alloc 1 ⟨40, 8⟩ (some 64) (fun _ => .data 7), .write ⟨96, 40, 8, 1⟩ 39 5, .alloc 2 ⟨128, 64⟩ (some 256) (fun _ => .data 3),
   .realloc ⟨96, 40, 8, 1⟩ 48 (some 1024) (fun _ => .data 9)]

example : ∃ s, rRun rStart rDemo = some s ∧ s.live = [⟨1056, 48, 8, 1⟩, ⟨320, 128, 64, 2⟩] ∧
    s.heap.mem (1056 + 39) = .data 5 ∧ s.heap.mem (1056 + 40) = .data 9 ∧ s.heap.mem 447 = .data 3 ∧
    (∃ s', rRun rStart (rDemo ++ [.free ⟨1056, 48, 8, 1⟩, .free ⟨320, 128, 64, 2⟩]) = some s' ∧ s'.heap.blks = []) :=
  ⟨_, rfl, rfl, rfl, rfl, rfl, _, rfl, rfl⟩

example : ∀ a ∈ rDemo, RGoodAct a := by
  intro a ha
  simp only [rDemo, List.mem_cons, List.not_mem_nil, or_false] at ha
  rcases ha with rfl | rfl | rfl | rfl
  · exact ⟨⟨⟨3, rfl⟩, by decide, .inl (by decide)⟩, by simp⟩
  · trivial
  · exact ⟨⟨⟨6, rfl⟩, by decide, .inr ⟨2, rfl⟩⟩, by simp⟩
  · exact ⟨.inl (by decide), by decide, by simp⟩

/-- The states of the programs of `C48_rust_partial`. -/
def RReachable (s : RSt) : Prop := ∃ acts : List RAct, rRun rStart acts = some s ∧ ∀ a ∈ acts, RGoodAct a

theorem RReachable.inv {s : RSt} (h : RReachable s) : RInv s := by
  obtain ⟨acts, h1, h2⟩ := h
  obtain ⟨s', h3, h4⟩ := rRun_inv acts rStart rStart_inv fun a ha => (h2 a ha).good
  rw [h1] at h3; cases h3; exact h4

/-- C48 (`RustAlloc`): a reallocation keeps the first bytes, up to the smaller of the two sizes, keeps the alignment, and leaves
every other allocation alone.

Partial: as `C48_rust_partial`. -/
theorem C48_rust_realloc_partial (s : RSt) (hr : RReachable s) (c : RClient) (hc : c ∈ s.live) (n new : Nat)
    (hfit : c.align ≤ 32 ∨ c.align ∣ n) (hbig : 32 + n + 2 * max 8 c.align ≤ 2 ^ 63) (junk : Nat → Cell RPrefix)
    (hans : ansOk (s.heap.blks.erase (rBlk (c.ptr - rOff c.align) c.size c.align c.bin)) (rLayout.concat ⟨n, c.align⟩) (some new) = true) :
    ∃ s' c', rStep s (.realloc c n (some new) junk) = some s' ∧ s'.live = c' :: s.live.erase c ∧ c'.size = n ∧
      c'.align = c.align ∧ c'.bin = c.bin ∧
      (∀ k, k < min c.size n → s'.heap.mem (c'.ptr + k) = s.heap.mem (c.ptr + k)) ∧
      (∀ d ∈ s.live, d ≠ c → d ∈ s'.live ∧ ∀ k, k < d.size → s'.heap.mem (d.ptr + k) = s.heap.mem (d.ptr + k)) := by
  have hi := hr.inv
  obtain ⟨p, f1, f2⟩ := hi.each c hc
  have hpp : c.ptr - rOff c.align = p := by omega
  have hans2 := hans
  rw [hpp, rConcat] at hans2
  have hg : RGood n c.align := ⟨f2.good.pow, by show 32 + n + max 8 c.align ≤ W; omega, hfit⟩
  obtain ⟨h', e1, e2, e3, e4, e5, e6⟩ := rustRealloc_some hi.ok f2 hg hbig hans2 junk
  have hoff : RP ≤ rOff c.align := by unfold rOff; omega
  refine ⟨⟨h', ⟨new + rOff c.align, n, c.align, c.bin⟩ :: s.live.erase c⟩, ⟨new + rOff c.align, n, c.align, c.bin⟩, ?_, rfl, rfl,
    rfl, rfl, fun k hk => ?_, fun d hd hne => ?_⟩
  · simp only [rStep]
    rw [if_pos ⟨hc, hans⟩]
    rw [f1, e1]
    simp only [Option.some.injEq, RSt.mk.injEq, true_and]
    rw [if_neg (by omega)]
  · rw [f1]; exact e6 k (by omega) (by omega)
  · refine ⟨List.mem_cons_of_mem _ ((hi.nodup.mem_erase_iff).2 ⟨hne, hd⟩), fun k hk => ?_⟩
    obtain ⟨q, g1, g2⟩ := hi.each d hd
    have r2 := rSz_room g2.good.pow g2.good.wrap g2.good.fit
    refine (e5 _ g2.hdr.mem (hi.other hc hd hne f1 g1)).2 _ ?_ ?_
    · show q ≤ _; omega
    · show _ < q + rSz d.size d.align; omega

/-- Exactly which requests get a block with room for them: those aligned to at most 32, those whose size is a multiple of the
alignment, and those whose size is so close below one that the padding covers the prefix. -/
theorem C48_rust_room_iff (n a : Nat) (hp : ∃ k, a = 2 ^ k) (h : 32 + n + max 8 a ≤ 2 ^ 64) :
    max (max 8 a) 32 + n ≤ (rLayout.concat ⟨n, a⟩).size ↔ a ≤ 32 ∨ n % a = 0 ∨ a < n % a + 32 := by
  have hs := rSz_spec n a h
  have pa := pow2_pos hp
  have hml := Nat.mod_lt n pa
  show rOff a + n ≤ rSz n a ↔ _
  constructor
  · intro hr
    by_cases h1 : a ≤ 32
    · exact .inl h1
    · right
      by_cases h2 : n % a = 0
      · exact .inl h2
      · right
        have he : rAl a = a := Nat.max_eq_right (by omega)
        have ho : rOff a = a := by unfold rOff; rw [he]; omega
        rw [ho] at hr
        rw [he] at hs
        -- otherwise the next multiple of `a` after `n` has room for the prefix, and the block ends there
        rcases Nat.lt_or_ge a (n % a + 32) with h3 | h3
        · exact h3
        · exfalso
          have hc := concat_size rLayout ⟨n, a⟩ (by decide) h
          have hmul := mod_fill n a pa
          have hle : rSz n a ≤ n + (a - n % a) := by
            refine hc.2.2.2 _ ?_ ?_
            · show (n + (a - n % a)) % rAl a = 0; rw [he]; exact hmul
            · show RP + n ≤ _; omega
          omega
  · intro hr
    rcases hr with h1 | h1 | h1
    · exact rSz_room hp h (.inl h1)
    · exact rSz_room hp h (.inr (Nat.dvd_of_mod_eq_zero h1))
    · by_cases h2 : a ≤ 32
      · exact rSz_room hp h (.inl h2)
      · have he : rAl a = a := Nat.max_eq_right (by omega)
        have ho : rOff a = a := by unfold rOff; rw [he]; omega
        rw [ho]
        rw [he] at hs
        by_cases h3 : n % a = 0
        · have := rSz_room hp h (.inr (Nat.dvd_of_mod_eq_zero h3))
          rw [ho] at this; exact this
        · have h4 := least_above n a (rSz n a) pa hs.1 (by omega) h3
          -- the block ends at a multiple of `a` that is not the next one after `n`
          have hmul := mod_fill n a pa
          have h5 : (n + (a - n % a)) < rSz n a := by omega
          have hd : a ∣ rSz n a - (n + (a - n % a)) :=
            Nat.dvd_sub (Nat.dvd_of_mod_eq_zero hs.1) (Nat.dvd_of_mod_eq_zero hmul)
          have := Nat.le_of_dvd (by omega) hd
          omega

/-- C48 does not hold for `RustAlloc` when the size is not a multiple of a large alignment: one byte aligned to 64 gets a pointer
to the end of a block of 64 bytes, and writing the byte is undefined. -/
theorem C48_rust_small_refuted :
    ∃ (l : Layout) (a : Nat) (c : RClient), l.valid = true ∧ ansOk [] (rLayout.concat l) (some a) = true ∧
      (∃ s, rRun rStart [.alloc 0 l (some a) (fun _ => .data 0)] = some s ∧ s.live = [c]) ∧ 0 < l.size ∧ c.size = l.size ∧
      rRun rStart [.alloc 0 l (some a) (fun _ => .data 0), .write c 0 1] = none :=
  ⟨⟨1, 64⟩, 1024, ⟨1088, 1, 64, 0⟩, by decide, by decide, ⟨_, rfl, rfl⟩, by decide, rfl, rfl⟩

/-- C48 does not hold for `RustAlloc` when the global allocator is out of memory: instead of a null pointer, the bookkeeping is
written near address 0. -/
theorem C48_rust_out_of_memory_refuted :
    (∀ (bin : Nat) (l : Layout) (s : RSt) (junk : Nat → Cell RPrefix), RReachable s → (rLayout.concat l).valid = true →
      (∀ b ∈ s.heap.blks, max (rLayout.concat l).align 32 ≤ b.base) →
      rStep s (.alloc bin l none junk) = none) ∧
    ∃ l : Layout, (rLayout.concat l).valid = true := by
  refine ⟨fun bin l s junk hr hv hb => ?_, ⟨8, 8⟩, by decide⟩
  have hi := hr.inv
  have hvv := (valid_iff _).1 hv
  simp only [rStep]
  rw [if_pos (show ansOk s.heap.blks (rLayout.concat l) none = true from rfl)]
  have hw : (0 + max (rLayout.concat l).align 32) % W = max (rLayout.concat l).align 32 := by
    rw [Nat.zero_add]; exact Nat.mod_eq_of_lt (by omega)
  have : rustAlloc s.heap bin l none junk = none := by
    unfold rustAlloc
    simp only [hv, if_true, Option.getD_none, hw]
    have hroom : s.heap.room (max (rLayout.concat l).align 32 - 32) 32 = false := by
      rw [Bool.eq_false_iff]
      intro hr
      obtain ⟨b, hbm, h1, h2⟩ := (room_iff _ _ _).1 hr
      have := hb b hbm
      omega
    have : s.heap.putHdr (max (rLayout.concat l).align 32 - 32) 32 ⟨rLayout.concat l, bin⟩ = none := by
      unfold Heap.putHdr
      rw [hroom]; rfl
    rw [this]
  rw [this]

/-- C48 does not hold for `RustAlloc` for a size of zero, for which the contract of `IAlloc` promises a null pointer. -/
theorem C48_rust_zero_refuted :
    ∃ s c, rRun rStart [.alloc 0 ⟨0, 8⟩ (some 1024) (fun _ => .data 0)] = some s ∧ s.live = [c] ∧ c.ptr ≠ 0 :=
  ⟨_, ⟨1056, 0, 8, 0⟩, rfl, rfl, by decide⟩

/-- C48 does not hold for `RustAlloc` when the size and the prefix together do not fit a `usize`: the block of 16 bytes that is
requested cannot even hold the bookkeeping. -/
theorem C48_rust_overflow_refuted :
    ∃ l : Layout, l.size < 2 ^ 64 ∧ rRun rStart [.alloc 0 l (some 1024) (fun _ => .data 0)] = none :=
  ⟨⟨2 ^ 64 - 16, 8⟩, by decide, rfl⟩

/-- C48 does not hold for `RustAlloc` when a reallocation asks for more than an `isize`: `alloc` refuses such a request, `realloc`
passes it to the global allocator, whose contract forbids it. -/
theorem C48_rust_huge_realloc_refuted :
    ∃ n, n < 2 ^ 64 - 64 ∧
      rRun rStart [.alloc 0 ⟨8, 8⟩ (some 1024) (fun _ => .data 0), .realloc ⟨1056, 8, 8, 0⟩ n none (fun _ => .data 0)] = none ∧
      (∃ s, rRun rStart [.alloc 0 ⟨n, 8⟩ none (fun _ => .data 0)] = some s ∧ s.live = []) :=
  ⟨2 ^ 63, by decide, rfl, _, rfl, rfl⟩

/-- C48 (`LibcAlloc`, unix): in any program that allocates, reallocates, frees and writes, with an arbitrary C allocator that may
refuse any request, no step is undefined.  Each pointer is aligned as requested, its bytes are inside one live block, and no
two allocations overlap.

Partial: on unix only (`C48_windows_refuted`), and a reallocation to fewer bytes must be one `libc::realloc` grants
(`C48_libc_shrink_refuted`). -/
theorem C48_libc_partial (acts : List LAct)
    (hf : ∀ a ∈ acts, match a with
      | .realloc c n ans1 _ _ => c.size ≤ n ∨ (c.align ≤ 8 ∧ ans1 ≠ none)
      | _ => True) :
    ∃ s, lRun .unix lStart acts = some s ∧
      (∀ c ∈ s.live, 0 < c.ptr ∧ c.ptr % c.align = 0 ∧
        ∃ b ∈ s.heap.blks, b.base ≤ c.ptr ∧ c.ptr + c.size ≤ b.base + b.size) ∧
      (∀ c ∈ s.live, ∀ d ∈ s.live, c ≠ d → c.ptr + c.size ≤ d.ptr ∨ d.ptr + d.size ≤ c.ptr) := by
  obtain ⟨s, hs, hi⟩ := lRun_inv acts lStart lStart_inv fun a ha => by
    have := hf a ha
    cases a <;> exact this
  refine ⟨s, hs, fun c hc => ?_, fun c hc d hd hne => ?_⟩
  · obtain ⟨_, _, e3⟩ := hi.each c hc
    have hb := hi.ok.each _ e3
    exact ⟨hb.1, hb.2.2.2, _, e3, Nat.le_refl _, Nat.le_refl _⟩
  · exact pairwise_mem (fun h => h.symm) hi.ok.apart _ (hi.each c hc).2.2 _ (hi.each d hd).2.2 (hi.other hd hc hne)

/-- The states of the programs of `C48_libc_partial`. -/
def LReachable (s : LSt) : Prop := ∃ acts : List LAct, lRun .unix lStart acts = some s ∧ ∀ a ∈ acts, lActGood a

theorem LReachable.inv {s : LSt} (h : LReachable s) : LInv s := by
  obtain ⟨acts, h1, h2⟩ := h
  obtain ⟨s', h3, h4⟩ := lRun_inv acts lStart lStart_inv h2
  rw [h1] at h3; cases h3; exact h4

/-- C48 (`LibcAlloc`, unix): a reallocation either returns null and changes nothing, or keeps the first bytes, up to the smaller
of the two sizes, and leaves every other allocation alone.

Partial: as `C48_libc_partial`. -/
theorem C48_libc_realloc_partial (s : LSt) (hr : LReachable s) (c : LClient) (hc : c ∈ s.live) (n : Nat) (ans1 ans2 : Option Nat)
    (hg : c.size ≤ n ∨ (c.align ≤ 8 ∧ ans1 ≠ none)) (junk : Nat → Cell Unit) :
    lStep .unix s (.realloc c n ans1 ans2 junk) = some s ∨
    ∃ s' c', lStep .unix s (.realloc c n ans1 ans2 junk) = some s' ∧ s'.live = c' :: s.live.erase c ∧ c'.size = n ∧
      c'.align = c.align ∧
      (∀ k, k < min c.size n → s'.heap.mem (c'.ptr + k) = s.heap.mem (c.ptr + k)) ∧
      (∀ d ∈ s.live, d ≠ c → d ∈ s'.live ∧ ∀ k, k < d.size → s'.heap.mem (d.ptr + k) = s.heap.mem (d.ptr + k)) := by
  have hi := hr.inv
  simp only [lStep]
  by_cases ha : c ∈ s.live ∧ ansOk (s.heap.blks.erase (lBlk c.ptr c.size c.align)) ⟨n, c.align⟩ ans1 = true ∧
      ansOk s.heap.blks ((memalign .unix ⟨n, c.align⟩).getD ⟨n, c.align⟩) ans2 = true
  · rw [if_pos ha]
    obtain ⟨p2, p8, hb⟩ := hi.each c hc
    have h2 := ha.2.2
    rw [memalign_unix_some p2 p8] at h2
    rcases libcRealloc_spec hi hc ha.2.1 h2 hg junk with e | ⟨h', new, rest, e1, e2, e3, e4, e5, e6, e7, e8, e9⟩
    · left; rw [e]; rfl
    · right
      refine ⟨⟨h', ⟨new, n, c.align⟩ :: s.live.erase c⟩, ⟨new, n, c.align⟩, ?_, rfl, rfl, rfl, fun k hk => e9 k (by omega) (by omega),
        fun d hd hne => ⟨List.mem_cons_of_mem _ ((hi.nodup.mem_erase_iff).2 ⟨hne, hd⟩), fun k hk => ?_⟩⟩
      · rw [e1]
        simp only [Option.some.injEq, LSt.mk.injEq, true_and]
        rw [if_neg (show ¬ new = 0 by omega)]
      · refine (e6 _ (hi.each d hd).2.2 (hi.other hc hd hne)).2 _ ?_ ?_
        · show d.ptr ≤ _; omega
        · show _ < d.ptr + d.size; omega
  · left; rw [if_neg ha]

/-- Grow an aligned block by moving it, and shrink a word-aligned one. -/
example : ∃ s, lRun .unix lStart [.alloc ⟨40, 64⟩ (some 64) (fun _ => .data 7), .write ⟨64, 40, 64⟩ 39 5,
      .realloc ⟨64, 40, 64⟩ 48 none (some 1024) (fun _ => .data 9), .alloc ⟨16, 8⟩ (some 8) (fun _ => .data 1),
      .realloc ⟨8, 16, 8⟩ 8 (some 8) none (fun _ => .data 2)] = some s ∧
    s.live = [⟨8, 8, 8⟩, ⟨1024, 48, 64⟩] ∧ s.heap.mem (1024 + 39) = .data 5 ∧ s.heap.mem 15 = .data 1 :=
  ⟨_, rfl, rfl, rfl, rfl⟩

/-- C48 (`LibcAlloc`, unix): requests aligned to less than a pointer are always refused (`posix_memalign` demands a multiple of
the size of a pointer), so `LibcAlloc` cannot be used for them. -/
theorem C48_libc_small_alignments (h : Heap Unit) (n a : Nat) (ha : a % 8 ≠ 0) (ans : Option Nat) (junk : Nat → Cell Unit) :
    libcAlloc h .unix ⟨n, a⟩ ans junk = (h, 0) := by
  unfold libcAlloc
  split
  · rfl
  · have : memalign .unix ⟨n, a⟩ = none := by
      unfold memalign; simp only; rw [if_neg fun h => ha h.2]
    rw [this]

example : (4 : Nat) % 8 ≠ 0 := by decide

/-- C48 does not hold for `LibcAlloc` when a block aligned to more than 8 is made smaller: the old size is copied into the new,
smaller block. -/
theorem C48_libc_shrink_refuted :
    ∃ (c : LClient) (n : Nat), 0 < n ∧ n < c.size ∧
      (∃ s, lRun .unix lStart [.alloc ⟨c.size, c.align⟩ (some c.ptr) (fun _ => .data 0)] = some s ∧ s.live = [c]) ∧
      lRun .unix lStart [.alloc ⟨c.size, c.align⟩ (some c.ptr) (fun _ => .data 0),
        .realloc c n none (some 4096) (fun _ => .data 0)] = none :=
  ⟨⟨1024, 128, 16⟩, 64, by decide, by decide, ⟨_, rfl, rfl⟩, rfl⟩

/-- C48 does not hold on windows: the size and the alignment are swapped on the way to `_aligned_malloc`, so 64 bytes aligned to 8
become 8 bytes aligned to 64, and writing the last byte is undefined. -/
theorem C48_windows_refuted :
    ∃ c : LClient, c.size = 64 ∧ c.align = 8 ∧
      (∃ s, lRun .windows lStart [.alloc ⟨64, 8⟩ (some c.ptr) (fun _ => .data 0)] = some s ∧ s.live = [c]) ∧
      lRun .windows lStart [.alloc ⟨64, 8⟩ (some c.ptr) (fun _ => .data 0), .write c 63 1] = none :=
  ⟨⟨1024, 64, 8⟩, rfl, rfl, ⟨_, rfl, rfl⟩, rfl⟩

/-- C48 (default `IAlloc::realloc`, over an allocator that hands out exactly what it is asked for): growing a block keeps its
bytes and leaves the others alone; a refusal changes nothing.

Partial: not for shrinking (`C48_default_realloc_refuted`). -/
theorem C48_default_realloc_partial {P : Type} (h : Heap P) (hk : HOk h.blks) (p n a m : Nat) (hb : (⟨p, n, a, 0⟩ : Blk) ∈ h.blks)
    (hge : n ≤ m) (junk : Nat → Cell P) :
    defaultRealloc h p ⟨n, a⟩ m none junk = some (h, 0) ∧
    ∀ new, freshIn h.blks new ⟨m, a⟩ = true →
      ∃ h', defaultRealloc h p ⟨n, a⟩ m (some new) junk = some (h', new) ∧ (⟨new, m, a, 0⟩ : Blk) ∈ h'.blks ∧
        (⟨p, n, a, 0⟩ : Blk) ∉ h'.blks ∧ (∀ k, k < n → h'.mem (new + k) = h.mem (p + k)) ∧
        ∀ b ∈ h.blks, b ≠ ⟨p, n, a, 0⟩ → b ∈ h'.blks ∧ ∀ x, b.base ≤ x → x < b.base + b.size → h'.mem x = h.mem x := by
  refine ⟨rfl, fun new hf => ?_⟩
  obtain ⟨h', e1, e2, e3, e4, e5⟩ := defaultRealloc_some hk hb hge hf junk
  have hpos := (hk.each _ hb).2.1
  simp only at hpos
  have hap := ((freshIn_iff _ _ _).1 hf).2.2.2 _ hb
  simp only at hap
  have hk1 : HOk (lBlk new m a :: h.blks) := hk.cons hf (show 0 < m by omega) 0
  refine ⟨h', e1, ?_, ?_, e5, fun b hb' hne => e4 b hb' hne⟩
  · rw [e3, hk1.mem_erase]
    refine ⟨fun he => ?_, List.mem_cons_self⟩
    have h1 : new = p := congrArg Blk.base he
    have h2 : m = n := congrArg Blk.size he
    omega
  · rw [e3]
    intro hm
    exact ((hk1.mem_erase _ _).1 hm).1 rfl

example : ∃ h', defaultRealloc (P := Unit) ⟨[⟨64, 8, 8, 0⟩], fun x => .data x⟩ 64 ⟨8, 8⟩ 16 (some 128) (fun _ => .data 0) = some (h', 128) ∧
    h'.mem 130 = .data 66 := ⟨_, rfl, rfl⟩

/-- C48 does not hold for the default `realloc` when it shrinks: it copies the old size into the smaller block. -/
theorem C48_default_realloc_refuted :
    ∃ (h : Heap Unit) (n m : Nat), HOk h.blks ∧ (⟨64, n, 8, 0⟩ : Blk) ∈ h.blks ∧ 0 < m ∧ m < n ∧
      freshIn h.blks 128 ⟨m, 8⟩ = true ∧ defaultRealloc h 64 ⟨n, 8⟩ m (some 128) (fun _ => .data 0) = none :=
  ⟨⟨[⟨64, 16, 8, 0⟩], fun _ => .data 0⟩, 16, 8,
    ⟨List.pairwise_singleton _ _, fun b hb => by
      have : b = ⟨64, 16, 8, 0⟩ := by simpa using hb
      subst this; decide⟩, by simp, by decide, by decide, by decide, rfl⟩

end Verif.Props.Allocators
