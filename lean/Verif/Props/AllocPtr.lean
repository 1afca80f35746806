import Verif.Alloc.Ptr
/-! C46: the blocks behind `Box`, `Vec` and `Arc` hold the prefix and the elements, and go back to the allocator they came from. -/
namespace Verif.Props.AllocPtr
open Verif.Alloc

/-- A program starts with nothing allocated. -/
def start : ASt := ⟨⟨[], fun _ => .data 0⟩, []⟩

theorem start_inv (e : Env) : AInv e start :=
  ⟨⟨List.Pairwise.nil, fun _ h => by simp [start] at h⟩, List.Pairwise.nil, fun _ h => by simp [start] at h⟩

/-- C46: whatever a program allocates, reallocates, frees and writes, and whatever addresses the allocator answers with, no step is
undefined: in particular every `free` and `realloc` reaches the allocator with a live block.  Each array is inside a live
block with its prefix right in front, each element is aligned, and no two arrays overlap.

Partial: `T` must not be more aligned than the prefix (`C46_overaligned_refuted`, `C46_overaligned_realloc_refuted`) and the
number of bytes must fit a `usize` (`C46_overflow_refuted`). -/
theorem C46_safe_partial (e : Env) (hpa : ∃ k, e.pre.align = 2 ^ k) (hea : ∃ k, e.elt.align = 2 ^ k)
    (hle : e.elt.align ≤ e.pre.align) (hps : 0 < e.pre.size) (hpd : e.pre.align ∣ e.pre.size) (hed : e.elt.align ∣ e.elt.size)
    (acts : List AAct)
    (hf : ∀ a ∈ acts, match a with
      | .alloc cap _ _ => e.pre.size + e.elt.size * cap + e.pre.align ≤ 2 ^ 64
      | .realloc _ cap _ _ => e.pre.size + e.elt.size * cap + e.pre.align ≤ 2 ^ 64
      | _ => True) :
    ∃ s, e.run start acts = some s ∧
      (∀ c ∈ s.live,
        (∀ i, i < c.cap → (c.ptr + e.elt.size * i) % e.elt.align = 0) ∧
        (∃ b ∈ s.heap.blks, b.base + e.pre.size ≤ c.ptr ∧ c.ptr + e.elt.size * c.cap ≤ b.base + b.size) ∧
        (c.ptr - e.pre.size) % e.pre.align = 0 ∧
        ∃ p, e.prefix s.heap c.ptr = some p ∧ ∃ b ∈ s.heap.blks, b.base = p.origin) ∧
      (∀ c ∈ s.live, ∀ d ∈ s.live, c ≠ d →
        c.ptr + e.elt.size * c.cap ≤ d.ptr - e.pre.size ∨ d.ptr + e.elt.size * d.cap ≤ c.ptr - e.pre.size) := by
  have ok : e.Ok := ⟨hpa, hea, hle, hps, hpd⟩
  obtain ⟨s, hs, hi⟩ := run_inv ok acts start (start_inv e) fun a ha => by
    have := hf a ha
    cases a <;> exact this
  refine ⟨s, hs, fun c hc => ?_, fun c hc d hd hne => ?_⟩
  · obtain ⟨p, st, w, cp, f1, f2, f3, f4⟩ := hi.each c hc
    have hb := hi.ok.each _ f4.mem
    have hl := e.layout_size ok f3
    have hpal : p % e.pre.align = 0 := hb.2.2.2
    have hptr : c.ptr % e.elt.align = 0 := by
      rw [f1]
      exact mod_of_dvd_mod (pow2_dvd hea hpa hle) (add_mod_zero hpal (Nat.mod_eq_zero_of_dvd hpd))
    have hpp : c.ptr - e.pre.size = p := by omega
    refine ⟨fun i _ => add_mod_zero hptr (Nat.mod_eq_zero_of_dvd (Nat.dvd_mul_right_of_dvd hed i)), ⟨_, f4.mem, ?_, ?_⟩, by rw [hpp]; exact hpal,
      ⟨_, by unfold Env.prefix; rw [hpp]; exact f4.get hps, _, f4.mem, rfl⟩⟩
    · show p + e.pre.size ≤ c.ptr; omega
    · show _ ≤ p + (e.layout c.cap).size; omega
  · obtain ⟨p, st, w, cp, f1, f2, f3, f4⟩ := hi.each c hc
    obtain ⟨q, st', w', cp', g1, g2, g3, g4⟩ := hi.each d hd
    have h1 := e.layout_size ok f3
    have h2 := e.layout_size ok g3
    have hpq := pairwise_mem (fun h => Ne.symm h) hi.apart c hc d hd hne
    have hap : Apart (e.blk p c.cap) (e.blk q d.cap) :=
      pairwise_mem (fun h => h.symm) hi.ok.apart _ f4.mem _ g4.mem fun hb => by
        have : p = q := congrArg Blk.base hb
        omega
    rcases hap with h | h <;> simp only [Env.blk] at h
    · left; omega
    · right; omega

/-- The states of a program that keeps to the sizes of `C46_safe_partial`. -/
def Reachable (e : Env) (s : ASt) : Prop :=
  ∃ acts : List AAct, e.run start acts = some s ∧ ∀ a ∈ acts, e.actFits a

theorem Reachable.inv {e : Env} (ok : e.Ok) {s : ASt} (h : Reachable e s) : AInv e s := by
  obtain ⟨acts, h1, h2⟩ := h
  obtain ⟨s', h3, h4⟩ := run_inv ok acts start (start_inv e) h2
  rw [h1] at h3; cases h3; exact h4

/-- C46: a reallocation that the allocator grants keeps the elements both arrays have room for, and leaves every other array
where it is with its contents; one that it refuses changes nothing.

Partial: as `C46_safe_partial`. -/
theorem C46_realloc_partial (e : Env) (ok : e.Ok) (s : ASt) (hr : Reachable e s) (c : AClient) (hc : c ∈ s.live) (cap : Nat)
    (hcap : e.pre.size + e.elt.size * cap + e.pre.align ≤ 2 ^ 64) (junk : Nat → Cell APrefix) :
    e.step s (.realloc c cap none junk) = some s ∧
    ∀ a, ansOk (s.heap.blks.erase (e.blk (c.ptr - e.pre.size) c.cap)) (e.layout cap) (some a) = true →
      ∃ s' c', e.step s (.realloc c cap (some a) junk) = some s' ∧ s'.live = c' :: s.live.erase c ∧ c'.cap = cap ∧
        (∀ k, k < e.elt.size * min c.cap cap → s'.heap.mem (c'.ptr + k) = s.heap.mem (c.ptr + k)) ∧
        (∀ d ∈ s.live, d ≠ c → d ∈ s'.live ∧ ∀ k, k < e.elt.size * d.cap → s'.heap.mem (d.ptr + k) = s.heap.mem (d.ptr + k)) := by
  have hi := hr.inv ok
  obtain ⟨p, st, w, cp, f1, f2, f3, f4⟩ := hi.each c hc
  have hpp : c.ptr - e.pre.size = p := by omega
  have hpos := ok.ps
  constructor
  · simp only [Env.step]
    rw [if_pos ⟨hc, rfl⟩]
    have : e.realloc s.heap c.ptr c.cap cap none junk = some (s.heap, 0) := by
      unfold Env.realloc
      rw [if_pos (show (⟨c.ptr - e.pre.size, (e.layout c.cap).size, e.pre.align, 0⟩ : Blk) ∈ s.heap.blks by
        rw [hpp]; exact f4.mem)]
    rw [this]
    rfl
  · intro a ha
    have ha' := ha
    rw [hpp] at ha
    have hfr : freshIn (s.heap.blks.erase (e.blk p c.cap)) a (e.layout cap) = true := ha
    obtain ⟨h', e1, e2, e3, e4, e5, e6⟩ := realloc_some ok hi.ok f3 hcap f4.mem hfr junk
    refine ⟨⟨h', ⟨a + e.pre.size, cap⟩ :: s.live.erase c⟩, ⟨a + e.pre.size, cap⟩, ?_, rfl, rfl, ?_, ?_⟩
    · simp only [Env.step]
      rw [if_pos ⟨hc, ha'⟩]
      rw [f1, e1]
      simp only [Option.some.injEq, ASt.mk.injEq, true_and]
      rw [if_neg (by omega)]
    · intro k hk
      rw [f1]
      exact e6 k (Nat.lt_of_lt_of_le hk (Nat.mul_le_mul_left _ (Nat.min_le_left _ _)))
        (Nat.lt_of_lt_of_le hk (Nat.mul_le_mul_left _ (Nat.min_le_right _ _)))
    · intro d hd hne
      refine ⟨List.mem_cons_of_mem _ ((hi.nodup.mem_erase_iff).2 ⟨hne, hd⟩), fun k hk => ?_⟩
      obtain ⟨q, st', w', cp', g1, g2, g3, g4⟩ := hi.each d hd
      have hl := e.layout_size ok g3
      refine (e5 _ g4.mem fun hb => ?_).2 _ ?_ ?_
      · have := pairwise_mem (fun h => Ne.symm h) hi.apart d hd c hc hne
        have : q = p := congrArg Blk.base hb
        omega
      · show q ≤ _; omega
      · show _ < q + (e.layout d.cap).size; omega

/-- A prefix of four words, as with both bundled allocators, and elements of 12 bytes. -/
def env12 : Env := ⟨⟨32, 8⟩, ⟨12, 4⟩⟩

/-- Allocate three elements, write into the second, grow in another place, free. -/
def demo : List AAct :=
  [.alloc 3 (some 64) (fun _ => .data 7), .write ⟨96, 3⟩ 12 5, .mark ⟨96, 3⟩ 2 1 3,
   .realloc ⟨96, 3⟩ 4 (some 1024) (fun _ => .data 9)]

example : ∃ s, env12.run start demo = some s ∧ s.live = [⟨1056, 4⟩] ∧ s.heap.mem (1056 + 12) = .data 5 ∧
    s.heap.mem (1056 + 11) = .data 7 ∧ s.heap.mem (1056 + 47) = .data 9 ∧
    (∃ s', env12.run start (demo ++ [.free ⟨1056, 4⟩]) = some s' ∧ s'.heap.blks = []) :=
  ⟨_, rfl, rfl, rfl, rfl, rfl, _, rfl, rfl⟩

example : Reachable env12 ((env12.run start demo).getD start) :=
  ⟨demo, rfl, by
    intro a ha
    simp only [demo, List.mem_cons, List.not_mem_nil, or_false] at ha
    rcases ha with rfl | rfl | rfl | rfl <;> simp [Env.actFits, Env.Fits, env12]⟩

/-- For any alignment of `T`, and any address the allocator may return for the prefix, the element pointer is aligned for `T`
and the prefix in front of it is inside the block; but the elements fit exactly when the padding in front of the elements is
not more than the padding the size computation made room for. -/
theorem C46_fits_iff (e : Env) (hpa : ∃ k, e.pre.align = 2 ^ k) (hea : ∃ k, e.elt.align = 2 ^ k)
    (hgt : e.pre.align ≤ e.elt.align) (hed : e.elt.align ∣ e.elt.size) (cap : Nat)
    (hf : e.pre.size + e.elt.size * cap + e.elt.align ≤ 2 ^ 64) (a : Nat) (ha : a + (e.layout cap).size + e.elt.align ≤ 2 ^ 64) :
    e.dataPtr a % e.elt.align = 0 ∧ a + e.pre.size ≤ e.dataPtr a ∧
      (e.dataPtr a + e.elt.size * cap ≤ a + (e.layout cap).size ↔
        (e.elt.align - (a + e.pre.size) % e.elt.align) % e.elt.align ≤ (e.elt.align - e.pre.size % e.elt.align) % e.elt.align) := by
  have pe := pow2_pos hea
  have pp := pow2_pos hpa
  have hm : (e.elt.array cap).size = e.elt.size * cap := Nat.mod_eq_of_lt (by omega)
  have hmax : max e.pre.align (e.elt.array cap).align = e.elt.align := Nat.max_eq_right hgt
  have hc := concat_size e.pre (e.elt.array cap) pp (by rw [hmax, hm]; exact hf)
  rw [hmax, hm] at hc
  have hls : (e.layout cap).size = (e.pre.concat (e.elt.array cap)).size := rfl
  -- the requested size is the rounded prefix and the elements
  have hn := alignOffset_spec e.pre.size e.elt.align pe
  have hdvd : e.elt.align ∣ e.elt.size * cap := Nat.dvd_mul_right_of_dvd hed cap
  have hsz : (e.layout cap).size = e.pre.size + alignOffset e.pre.size e.elt.align + e.elt.size * cap := by
    rw [hls]
    apply Nat.le_antisymm
    · exact hc.2.2.2 _ (add_mod_zero hn.1 (Nat.mod_eq_zero_of_dvd hdvd)) (by omega)
    · have h1 : ((e.pre.concat (e.elt.array cap)).size - e.elt.size * cap) % e.elt.align = 0 :=
        Nat.mod_eq_zero_of_dvd (Nat.dvd_sub (Nat.dvd_of_mod_eq_zero hc.1) hdvd)
      have := hn.2.2 _ h1 (by omega)
      omega
  have hsp := alignOffset_spec (a + e.pre.size) e.elt.align pe
  have hw1 : (a + e.pre.size) % W = a + e.pre.size := Nat.mod_eq_of_lt (by omega)
  have hd : e.dataPtr a = a + e.pre.size + alignOffset (a + e.pre.size) e.elt.align := by
    show ((a + e.pre.size) % W + alignOffset ((a + e.pre.size) % W) e.elt.align) % W = _
    rw [hw1]
    exact Nat.mod_eq_of_lt (by omega)
  refine ⟨by rw [hd]; exact hsp.1, by omega, ?_⟩
  rw [hd, hsz]
  show _ ↔ alignOffset _ _ ≤ alignOffset _ _
  omega

/-- C46 does not hold for elements that are more aligned than the prefix: the block is requested with the alignment of the prefix
only, and when it does not happen to suit the elements they end past the block.  Here 64-aligned elements, in a block at 1064:
the allocator is asked for 128 bytes, the one element takes the bytes from 1152 to 1216, the block ends at 1192, and writing
the last byte of the element is undefined. -/
theorem C46_overaligned_refuted :
    ∃ (e : Env) (a : Nat), (∃ k, e.pre.align = 2 ^ k) ∧ (∃ k, e.elt.align = 2 ^ k) ∧ e.pre.align ∣ e.pre.size ∧
      e.elt.align ∣ e.elt.size ∧ freshIn [] a (e.layout 1) = true ∧
      (∃ s c, e.run start [.alloc 1 (some a) (fun _ => .data 0)] = some s ∧ s.live = [c] ∧
        (∀ b ∈ s.heap.blks, b.base + b.size < c.ptr + e.elt.size) ∧
        e.run start [.alloc 1 (some a) (fun _ => .data 0), .write c 63 1] = none) :=
  ⟨⟨⟨32, 8⟩, ⟨64, 64⟩⟩, 1064, ⟨3, rfl⟩, ⟨6, rfl⟩, by decide, by decide, by decide, _, ⟨1152, 1⟩, rfl, rfl,
    by intro b hb
       have : b = ⟨1064, 128, 8, 0⟩ := by
         have : b ∈ [(⟨1064, 128, 8, 0⟩ : Blk)] := hb
         simpa using this
       subst this; decide, rfl⟩

/-- C46 does not hold for them either when the elements do fit: `realloc` gives the allocator the address of the prefix, which
is not the address the allocator returned.  (`free` gives it the right one.) -/
theorem C46_overaligned_realloc_refuted :
    ∃ (e : Env) (a : Nat) (c : AClient), (∃ k, e.pre.align = 2 ^ k) ∧ (∃ k, e.elt.align = 2 ^ k) ∧
      (∃ s, e.run start [.alloc 1 (some a) (fun _ => .data 0)] = some s ∧ c ∈ s.live ∧
        (∃ b ∈ s.heap.blks, b.base ≤ c.ptr ∧ c.ptr + e.elt.size ≤ b.base + b.size)) ∧
      e.run start [.alloc 1 (some a) (fun _ => .data 0), .realloc c 2 none (fun _ => .data 0)] = none ∧
      (e.run start [.alloc 1 (some a) (fun _ => .data 0), .free c]).isSome :=
  ⟨⟨⟨32, 8⟩, ⟨64, 64⟩⟩, 1032, ⟨1088, 1⟩, ⟨3, rfl⟩, ⟨6, rfl⟩,
    ⟨_, rfl, by decide, ⟨1032, 128, 8, 0⟩, List.mem_cons_self, by decide, by decide⟩, rfl, rfl⟩

/-- C46 does not hold when the number of bytes does not fit a `usize`: in a release build, room for `2^61` elements of 8 bytes is
"obtained" in a block that has room for none. -/
theorem C46_overflow_refuted :
    ∃ (e : Env) (cap a : Nat), e.elt = ⟨8, 8⟩ ∧ cap < 2 ^ 64 ∧ 0 < cap ∧ freshIn [] a (e.layout cap) = true ∧
      (∃ s c, e.run start [.alloc cap (some a) (fun _ => .data 0)] = some s ∧ s.live = [c] ∧ c.cap = cap ∧
        (∀ b ∈ s.heap.blks, b.base + b.size ≤ c.ptr)) :=
  ⟨⟨⟨32, 8⟩, ⟨8, 8⟩⟩, 2 ^ 61, 1024, rfl, by decide, by decide, by decide, _, ⟨1056, 2 ^ 61⟩, rfl, rfl, rfl,
    by intro b hb
       have : b ∈ [(⟨1024, 32, 8, 0⟩ : Blk)] := hb
       have : b = ⟨1024, 32, 8, 0⟩ := by simpa using this
       subst this; decide⟩

end Verif.Props.AllocPtr
