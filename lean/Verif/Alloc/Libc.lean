import Verif.Alloc.Ptr
/-! `LibcAlloc` over an arbitrary C allocator: single operations and whole programs. -/
namespace Verif.Alloc
variable {P : Type}

/-- The block behind a pointer. -/
def lBlk (p n a : Nat) : Blk := ⟨p, n, a, 0⟩

/-- The moving path, into a block that is at least as large. -/
theorem moved_some {h : Heap P} (hk : HOk h.blks) {p n a m new : Nat} (hb : lBlk p n a ∈ h.blks) (hge : n ≤ m)
    (hf : freshIn h.blks new ⟨m, a⟩ = true) (junk : Nat → Cell P) :
    ∃ h2 h3, (h.grant new ⟨m, a⟩ 0 junk).copy p new n = some h2 ∧ libcFree h2 p = some h3 ∧ HOk h3.blks ∧
      h3.blks = (lBlk new m a :: h.blks).erase (lBlk p n a) ∧ lBlk new m a ∈ h3.blks ∧
      Same h h3 (fun c => c = lBlk p n a) ∧ ∀ k, k < n → h3.mem (new + k) = h.mem (p + k) := by
  have hpos := (hk.each _ hb).2.1
  simp only [lBlk] at hpos
  have hk1 : HOk (h.grant new ⟨m, a⟩ 0 junk).blks := hk.cons hf (show 0 < m by omega) 0
  have hfm := fresh_not_mem hf (show 0 < m by omega) 0
  have hap := ((freshIn_iff _ _ _).1 hf).2.2.2 _ hb
  simp only [lBlk] at hap
  have hbn : lBlk p n a ∈ (h.grant new ⟨m, a⟩ 0 junk).blks := List.mem_cons_of_mem _ hb
  have hnn : lBlk new m a ∈ (h.grant new ⟨m, a⟩ 0 junk).blks := List.mem_cons_self
  obtain ⟨h2, e1, e2, e3, e4⟩ := copy_some hk1 hbn hnn (src := p) (dst := new) (n := n) (Nat.le_refl _) (Nat.le_refl _)
    (Nat.le_refl _) (show new + n ≤ new + m by omega) (by omega)
  have hk2 : HOk h2.blks := by rw [e2]; exact hk1
  obtain ⟨h3, f1, f2, f3, f4⟩ := libcFree_some hk2 (b := lBlk p n a) (by rw [e2]; exact hbn)
  have hne : lBlk new m a ≠ lBlk p n a := by
    intro he
    have : new = p := congrArg Blk.base he
    have : m = n := congrArg Blk.size he
    omega
  have hn3 : lBlk new m a ∈ h3.blks := by
    rw [f4, hk2.mem_erase]
    exact ⟨hne, by rw [e2]; exact hnn⟩
  refine ⟨h2, h3, e1, f1, f2, by rw [f4, e2]; rfl, hn3, ?_, ?_⟩
  · have s1 : Same h h2 (fun _ => False) := (grant_same hf 0 junk).trans e3 fun c hc _ hcb => by
      subst hcb; exact hfm hc
    intro c hc hn
    have ⟨a1, a2⟩ := s1 c hc (fun h => h)
    have ⟨b1, b2⟩ := f3 c a1 hn
    exact ⟨b1, fun x p q => by rw [b2 x p q, a2 x p q]⟩
  · intro k hk
    have hm : h3.mem (new + k) = h2.mem (new + k) :=
      (f3 _ (by rw [e2]; exact hnn) hne).2 _ (show new ≤ _ by omega) (show _ < new + m by omega)
    rw [hm, e4 k hk]
    exact ((grant_same hf 0 junk) _ hb (fun h => h)).2 _ (show p ≤ _ by omega) (show _ < p + n by omega)

theorem defaultRealloc_some {h : Heap P} (hk : HOk h.blks) {p n a m new : Nat} (hb : lBlk p n a ∈ h.blks) (hge : n ≤ m)
    (hf : freshIn h.blks new ⟨m, a⟩ = true) (junk : Nat → Cell P) :
    ∃ h', defaultRealloc h p ⟨n, a⟩ m (some new) junk = some (h', new) ∧ HOk h'.blks ∧
      h'.blks = (lBlk new m a :: h.blks).erase (lBlk p n a) ∧
      Same h h' (fun c => c = lBlk p n a) ∧ ∀ k, k < n → h'.mem (new + k) = h.mem (p + k) := by
  obtain ⟨h2, h3, e1, e2, e3, e4, _, e5, e6⟩ := moved_some hk hb hge hf junk
  refine ⟨h3, ?_, e3, e4, e5, e6⟩
  unfold defaultRealloc
  simp only [e1, e2]

/-! ### Programs -/

/-- A pointer the program got from the allocator and the layout it asked for. -/
structure LClient where
  ptr : Nat
  size : Nat
  align : Nat
deriving DecidableEq

/-- Memory and the pointers the program holds. -/
structure LSt where
  heap : Heap Unit
  live : List LClient

/-- What a program does; the answers of libc are part of the step. -/
inductive LAct where
  | alloc (l : Layout) (ans : Option Nat) (junk : Nat → Cell Unit)
  | realloc (c : LClient) (n : Nat) (ans1 ans2 : Option Nat) (junk : Nat → Cell Unit)
  | free (c : LClient)
  | write (c : LClient) (off v : Nat)

/-- One step; a step that libc or the contract of `IAlloc` does not allow does nothing.  `none` is undefined behaviour. -/
def lStep (os : Os) (s : LSt) : LAct → Option LSt
  | .alloc l ans junk =>
    if ansOk s.heap.blks ((memalign os l).getD l) ans then
      match libcAlloc s.heap os l ans junk with
      | (h, p) => some ⟨h, if p = 0 then s.live else ⟨p, l.size, l.align⟩ :: s.live⟩
    else some s
  | .realloc c n ans1 ans2 junk =>
    if c ∈ s.live ∧ ansOk (s.heap.blks.erase (lBlk c.ptr c.size c.align)) ⟨n, c.align⟩ ans1 ∧
        ansOk s.heap.blks ((memalign os ⟨n, c.align⟩).getD ⟨n, c.align⟩) ans2 then
      match libcRealloc s.heap os c.ptr ⟨c.size, c.align⟩ n ans1 ans2 junk with
      | none => none
      | some (h, p) => some ⟨h, if p = 0 then s.live else ⟨p, n, c.align⟩ :: s.live.erase c⟩
    else some s
  | .free c =>
    if c ∈ s.live then
      match libcFree s.heap c.ptr with
      | none => none
      | some h => some ⟨h, s.live.erase c⟩
    else some s
  | .write c off v =>
    if c ∈ s.live ∧ off < c.size then
      match s.heap.put (c.ptr + off) (.data v) with
      | none => none
      | some h => some ⟨h, s.live⟩
    else some s

/-- A whole program. -/
def lRun (os : Os) (s : LSt) : List LAct → Option LSt
  | [] => some s
  | a :: as =>
    match lStep os s a with
    | none => none
    | some s' => lRun os s' as

/-- A reallocation that does not take the moving path to a smaller block. -/
def lActGood : LAct → Prop
  | .realloc c n ans1 _ _ => c.size ≤ n ∨ (c.align ≤ 8 ∧ ans1 ≠ none)
  | _ => True

/-- What holds between steps. -/
structure LInv (s : LSt) : Prop where
  ok : HOk s.heap.blks
  apart : s.live.Pairwise fun c c' => c.ptr ≠ c'.ptr
  each : ∀ c ∈ s.live, (∃ k, c.align = 2 ^ k) ∧ c.align % 8 = 0 ∧ lBlk c.ptr c.size c.align ∈ s.heap.blks

theorem LInv.nodup {s : LSt} (hi : LInv s) : s.live.Nodup :=
  hi.apart.imp fun h e => h (by rw [e])

theorem LInv.other {s : LSt} (hi : LInv s) {c d : LClient} (hc : c ∈ s.live) (hd : d ∈ s.live) (hne : d ≠ c) :
    lBlk d.ptr d.size d.align ≠ lBlk c.ptr c.size c.align := by
  intro hb
  have := pairwise_mem (fun h => Ne.symm h) hi.apart d hd c hc hne
  exact this (congrArg Blk.base hb)

theorem LInv.erase {s : LSt} (hi : LInv s) {c : LClient} (hc : c ∈ s.live)
    {h' : Heap Unit} (hok : HOk h'.blks) (hs : Same s.heap h' (fun b => b = lBlk c.ptr c.size c.align)) :
    LInv ⟨h', s.live.erase c⟩ := by
  refine ⟨hok, List.Pairwise.sublist List.erase_sublist hi.apart, fun d hd => ?_⟩
  have hd' := (hi.nodup.mem_erase_iff).1 hd
  obtain ⟨e1, e2, e3⟩ := hi.each d hd'.2
  exact ⟨e1, e2, (hs _ e3 (hi.other hc hd'.2 hd'.1)).1⟩

theorem LInv.cons {s : LSt} (hi : LInv s) {p n a : Nat} {rest : List Blk} (hfr : freshIn rest p ⟨n, a⟩ = true)
    (hold : ∀ c ∈ s.live, lBlk c.ptr c.size c.align ∈ rest) (ha : ∃ k, a = 2 ^ k) (ha8 : a % 8 = 0) (hn : 0 < n)
    (hh : lBlk p n a ∈ s.heap.blks) : LInv ⟨s.heap, ⟨p, n, a⟩ :: s.live⟩ := by
  refine ⟨hi.ok, List.pairwise_cons.2 ⟨fun c hcm heq => ?_, hi.apart⟩, fun d hd => ?_⟩
  · obtain ⟨_, _, e3⟩ := hi.each c hcm
    have hap := ((freshIn_iff _ _ _).1 hfr).2.2.2 _ (hold c hcm)
    have h3 := (hi.ok.each _ e3).2.1
    simp only [lBlk] at hap h3 heq
    omega
  · rcases List.mem_cons.1 hd with rfl | hd
    · exact ⟨ha, ha8, hh⟩
    · exact hi.each d hd

theorem memalign_unix {l m : Layout} (h : memalign .unix l = some m) : m = l ∧ (∃ k, l.align = 2 ^ k) ∧ l.align % 8 = 0 := by
  unfold memalign at h
  simp only at h
  split at h
  · rename_i hc
    cases h
    exact ⟨rfl, (isPow2_iff _).1 hc.1, hc.2⟩
  · cases h

theorem memalign_unix_some {n a : Nat} (ha : ∃ k, a = 2 ^ k) (h8 : a % 8 = 0) : memalign .unix ⟨n, a⟩ = some ⟨n, a⟩ := by
  unfold memalign
  simp only
  rw [if_pos ⟨(isPow2_iff _).2 ha, h8⟩]

/-- What a reallocation does, on unix. -/
theorem libcRealloc_spec {s : LSt} (hi : LInv s) {c : LClient} (hc : c ∈ s.live) {n : Nat} {ans1 ans2 : Option Nat}
    (h1 : ansOk (s.heap.blks.erase (lBlk c.ptr c.size c.align)) ⟨n, c.align⟩ ans1 = true)
    (h2 : ansOk s.heap.blks ⟨n, c.align⟩ ans2 = true) (hg : c.size ≤ n ∨ (c.align ≤ 8 ∧ ans1 ≠ none)) (junk : Nat → Cell Unit) :
    libcRealloc s.heap .unix c.ptr ⟨c.size, c.align⟩ n ans1 ans2 junk = some (s.heap, 0) ∨
    ∃ h' new rest, libcRealloc s.heap .unix c.ptr ⟨c.size, c.align⟩ n ans1 ans2 junk = some (h', new) ∧ 0 < n ∧ 0 < new ∧
      HOk h'.blks ∧ lBlk new n c.align ∈ h'.blks ∧ Same s.heap h' (fun b => b = lBlk c.ptr c.size c.align) ∧
      freshIn rest new ⟨n, c.align⟩ = true ∧ (∀ b ∈ s.heap.blks, b ≠ lBlk c.ptr c.size c.align → b ∈ rest) ∧
      ∀ k, k < c.size → k < n → h'.mem (new + k) = s.heap.mem (c.ptr + k) := by
  obtain ⟨p2, p8, hb⟩ := hi.each c hc
  have hbpos := (hi.ok.each _ hb).2.1
  simp only [lBlk] at hbpos
  have hbat : s.heap.blockAt c.ptr = some (lBlk c.ptr c.size c.align) := blockAt_some hi.ok hb
  -- the moving path
  have hmove : c.size ≤ n →
      libcMove s.heap .unix c.ptr ⟨c.size, c.align⟩ n ans2 junk = some (s.heap, 0) ∨
      ∃ h' new rest, libcMove s.heap .unix c.ptr ⟨c.size, c.align⟩ n ans2 junk = some (h', new) ∧ 0 < n ∧ 0 < new ∧
        HOk h'.blks ∧ lBlk new n c.align ∈ h'.blks ∧ Same s.heap h' (fun b => b = lBlk c.ptr c.size c.align) ∧
        freshIn rest new ⟨n, c.align⟩ = true ∧ (∀ b ∈ s.heap.blks, b ≠ lBlk c.ptr c.size c.align → b ∈ rest) ∧
        ∀ k, k < c.size → k < n → h'.mem (new + k) = s.heap.mem (c.ptr + k) := by
    intro hge
    cases ans2 with
    | none => left; unfold libcMove; rw [memalign_unix_some p2 p8]
    | some new =>
      right
      have hf : freshIn s.heap.blks new ⟨n, c.align⟩ = true := h2
      obtain ⟨h2', h3, e1, e2, e3, e4, e5, e6, e7⟩ := moved_some hi.ok hb hge hf junk
      refine ⟨h3, new, s.heap.blks, ?_, by omega, ((freshIn_iff _ _ _).1 hf).1, e3, e5, e6, hf, fun b hb _ => hb,
        fun k hk _ => e7 k hk⟩
      unfold libcMove
      rw [memalign_unix_some p2 p8]
      simp only [e1, e2]
  by_cases hn : n = 0
  · left; unfold libcRealloc; rw [if_pos hn]
  · by_cases ha : c.align ≤ 8
    · cases ans1 with
      | none =>
        have hge : c.size ≤ n := by
          rcases hg with h | h
          · exact h
          · exact absurd rfl h.2
        have : libcRealloc s.heap .unix c.ptr ⟨c.size, c.align⟩ n none ans2 junk =
            libcMove s.heap .unix c.ptr ⟨c.size, c.align⟩ n ans2 junk := by
          unfold libcRealloc
          rw [if_neg hn, if_pos (show (⟨c.size, c.align⟩ : Layout).align ≤ 8 from ha), hbat]
        rw [this]; exact hmove hge
      | some new =>
        right
        have hf : freshIn (s.heap.blks.erase (lBlk c.ptr c.size c.align)) new ⟨n, c.align⟩ = true := h1
        refine ⟨s.heap.regrant (lBlk c.ptr c.size c.align) new n junk, new, _, ?_, by omega, ((freshIn_iff _ _ _).1 hf).1,
          (hi.ok.erase _).cons hf (show 0 < n by omega) 0, List.mem_cons_self, regrant_same hi.ok hf junk, hf,
          fun b hb hne => (hi.ok.mem_erase _ _).2 ⟨hne, hb⟩, fun k k1 k2 => ?_⟩
        · unfold libcRealloc
          rw [if_neg hn, if_pos (show (⟨c.size, c.align⟩ : Layout).align ≤ 8 from ha), hbat]
        · show (if within (new + k) new n then
            (if new + k - new < c.size then s.heap.mem (c.ptr + (new + k - new)) else _) else _) = _
          rw [if_pos ((within_iff _ _ _).2 (by omega)), if_pos (by omega)]
          congr 1; omega
    · have hge : c.size ≤ n := by
        rcases hg with h | h
        · exact h
        · exact absurd h.1 ha
      have : libcRealloc s.heap .unix c.ptr ⟨c.size, c.align⟩ n ans1 ans2 junk =
          libcMove s.heap .unix c.ptr ⟨c.size, c.align⟩ n ans2 junk := by
        unfold libcRealloc
        rw [if_neg hn, if_neg (show ¬ (⟨c.size, c.align⟩ : Layout).align ≤ 8 from ha)]
      rw [this]; exact hmove hge

theorem lStep_inv {s : LSt} (hi : LInv s) (act : LAct) (hf : lActGood act) : ∃ s', lStep .unix s act = some s' ∧ LInv s' := by
  cases act with
  | alloc l ans junk =>
    obtain ⟨n, a⟩ := l
    simp only [lStep]
    by_cases ha : ansOk s.heap.blks ((memalign .unix ⟨n, a⟩).getD ⟨n, a⟩) ans = true
    · rw [if_pos ha]
      by_cases hn : n = 0
      · have : libcAlloc s.heap .unix ⟨n, a⟩ ans junk = (s.heap, 0) := by unfold libcAlloc; rw [if_pos hn]
        rw [this]; exact ⟨_, rfl, by rw [if_pos rfl]; exact hi⟩
      · cases hm : memalign .unix ⟨n, a⟩ with
        | none =>
          have : libcAlloc s.heap .unix ⟨n, a⟩ ans junk = (s.heap, 0) := by
            unfold libcAlloc; rw [if_neg hn, hm]
          rw [this]; exact ⟨_, rfl, by rw [if_pos rfl]; exact hi⟩
        | some m =>
          obtain ⟨rfl, p2, p8⟩ := memalign_unix hm
          cases ans with
          | none =>
            have : libcAlloc s.heap .unix ⟨n, a⟩ none junk = (s.heap, 0) := by
              unfold libcAlloc; rw [if_neg hn, hm]
            rw [this]; exact ⟨_, rfl, by rw [if_pos rfl]; exact hi⟩
          | some new =>
            rw [hm] at ha
            have hfr : freshIn s.heap.blks new ⟨n, a⟩ = true := ha
            have : libcAlloc s.heap .unix ⟨n, a⟩ (some new) junk = (s.heap.grant new ⟨n, a⟩ 0 junk, new) := by
              unfold libcAlloc; rw [if_neg hn, hm]
            rw [this]
            have h0 := ((freshIn_iff _ _ _).1 hfr).1
            refine ⟨_, rfl, ?_⟩
            rw [if_neg (show ¬ new = 0 by omega)]
            have hi' : LInv ⟨s.heap.grant new ⟨n, a⟩ 0 junk, s.live⟩ :=
              ⟨hi.ok.cons hfr (show 0 < n by omega) 0, hi.apart, fun c hc => by
                obtain ⟨e1, e2, e3⟩ := hi.each c hc
                exact ⟨e1, e2, List.mem_cons_of_mem _ e3⟩⟩
            exact hi'.cons hfr (fun c hc => (hi.each c hc).2.2) p2 p8 (by omega) List.mem_cons_self
    · rw [if_neg ha]; exact ⟨s, rfl, hi⟩
  | realloc c n ans1 ans2 junk =>
    simp only [lStep]
    by_cases ha : c ∈ s.live ∧ ansOk (s.heap.blks.erase (lBlk c.ptr c.size c.align)) ⟨n, c.align⟩ ans1 = true ∧
        ansOk s.heap.blks ((memalign .unix ⟨n, c.align⟩).getD ⟨n, c.align⟩) ans2 = true
    · rw [if_pos ha]
      obtain ⟨p2, p8, hb⟩ := hi.each c ha.1
      have h2 := ha.2.2
      rw [memalign_unix_some p2 p8] at h2
      rcases libcRealloc_spec hi ha.1 ha.2.1 h2 hf junk with e | ⟨h', new, rest, e1, e2, e3, e4, e5, e6, e7, e8, _⟩
      · rw [e]; exact ⟨_, rfl, by rw [if_pos rfl]; exact hi⟩
      · rw [e1]
        refine ⟨_, rfl, ?_⟩
        rw [if_neg (show ¬ new = 0 by omega)]
        refine (hi.erase ha.1 e4 e6).cons e7 (fun d hd => ?_) p2 p8 e2 e5
        have hd' := (hi.nodup.mem_erase_iff).1 hd
        exact e8 _ (hi.each d hd'.2).2.2 (hi.other ha.1 hd'.2 hd'.1)
    · rw [if_neg ha]; exact ⟨s, rfl, hi⟩
  | free c =>
    simp only [lStep]
    by_cases ha : c ∈ s.live
    · rw [if_pos ha]
      obtain ⟨h', e1, e2, e3, e4⟩ := libcFree_some hi.ok (hi.each c ha).2.2
      have e1' : libcFree s.heap c.ptr = some h' := e1
      rw [e1']
      exact ⟨_, rfl, hi.erase ha e2 e3⟩
    · rw [if_neg ha]; exact ⟨s, rfl, hi⟩
  | write c off v =>
    simp only [lStep]
    by_cases ha : c ∈ s.live ∧ off < c.size
    · rw [if_pos ha]
      obtain ⟨h', e1, e2, e3, e4, e5⟩ := put_some hi.ok (hi.each c ha.1).2.2 (a := c.ptr + off) (v := .data v)
        (show c.ptr ≤ c.ptr + off by omega) (show c.ptr + off < c.ptr + c.size by omega)
      rw [e1]
      refine ⟨_, rfl, by rw [e2]; exact hi.ok, hi.apart, fun d hd => ?_⟩
      obtain ⟨f1, f2, f3⟩ := hi.each d hd
      exact ⟨f1, f2, by rw [e2]; exact f3⟩
    · rw [if_neg ha]; exact ⟨s, rfl, hi⟩

theorem lRun_inv : ∀ (acts : List LAct) (s : LSt), LInv s → (∀ a ∈ acts, lActGood a) →
    ∃ s', lRun .unix s acts = some s' ∧ LInv s'
  | [], s, hi, _ => ⟨s, rfl, hi⟩
  | a :: as, s, hi, hf => by
    obtain ⟨s1, e1, i1⟩ := lStep_inv hi a (hf a List.mem_cons_self)
    obtain ⟨s2, e2, i2⟩ := lRun_inv as s1 i1 fun b hb => hf b (List.mem_cons_of_mem _ hb)
    exact ⟨s2, by unfold lRun; rw [e1]; exact e2, i2⟩

end Verif.Alloc
