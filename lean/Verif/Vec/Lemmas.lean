import Verif.Vec.Model

namespace Verif.Vec
variable {α : Type}

/-- The allocator never grants half of the address space or more. -/
def Sane (e : Env) : Prop := (0 < e.esz ∧ e.esz < 9223372036854775808) ∧ ∀ i b, e.ok i b = true → b < 9223372036854775808

/-- Nothing but the cells differs. -/
structure Frame (v v' : Vec α) : Prop where
  len : v'.len = v.len
  cap : v'.cap = v.cap
  blk : v'.block.isSome = v.block.isSome
  size : v'.cells.length = v.cells.length

theorem Frame.refl (v : Vec α) : Frame v v := ⟨rfl, rfl, rfl, rfl⟩
theorem Frame.trans {u v w : Vec α} (h : Frame u v) (h' : Frame v w) : Frame u w :=
  ⟨h'.len.trans h.len, h'.cap.trans h.cap, h'.blk.trans h.blk, h'.size.trans h.size⟩

theorem withCells_spec (v : Vec α) (c : List (Option α)) (h : c.length = v.cells.length) :
    Frame v (v.withCells c) ∧ (v.withCells c).cells = c := by
  obtain ⟨b, l, k⟩ := v
  cases b with
  | none =>
    simp only [Vec.cells, List.length_nil, List.length_eq_zero_iff] at h
    subst h
    exact ⟨⟨rfl, rfl, rfl, rfl⟩, rfl⟩
  | some b => exact ⟨⟨rfl, rfl, rfl, h⟩, rfl⟩

theorem write_spec (v : Vec α) (i : Nat) (x : α) (h : i < v.cells.length) :
    ∃ v', write v i x = some v' ∧ Frame v v' ∧ v'.cells = v.cells.set i (some x) := by
  have := withCells_spec v (v.cells.set i (some x)) (by simp)
  exact ⟨_, by simp [write, h], this.1, this.2⟩

theorem read_spec (v : Vec α) (l : List α) (rest) (hc : v.cells = l.map some ++ rest) (i : Nat) (h : i < l.length) :
    read v i = some l[i] := by
  simp [read, hc, List.getElem?_append, h]

theorem slice_spec (v : Vec α) (l : List α) (rest) (hc : v.cells = l.map some ++ rest) (n i : Nat) (h : i + n ≤ l.length) :
    slice v i n = some ((l.drop i).take n) := by
  induction n generalizing i with
  | zero => simp [slice]
  | succ n ih =>
    have hi : i < l.length := by omega
    simp only [slice, read_spec v l rest hc i hi, ih (i + 1) (by omega), Option.bind_eq_bind, Option.bind_some,
      Option.pure_def]
    rw [List.drop_eq_getElem_cons hi, List.take_succ_cons]

theorem writeAll_spec (v : Vec α) (xs : List α) (pre rest : List (Option α)) (hc : v.cells = pre ++ rest)
    (h : xs.length ≤ rest.length) : ∃ v', writeAll v pre.length xs = some v' ∧ Frame v v' ∧
      v'.cells = pre ++ xs.map some ++ rest.drop xs.length := by
  induction xs generalizing v pre rest with
  | nil => exact ⟨v, rfl, .refl v, by simp [hc]⟩
  | cons x xs ih =>
    obtain ⟨r, rest, rfl⟩ : ∃ r rest', rest = r :: rest' := by
      cases rest with
      | nil => simp at h
      | cons r rest => exact ⟨r, rest, rfl⟩
    obtain ⟨v1, h1, f1, c1⟩ := write_spec v pre.length x (by simp [hc])
    have c1' : v1.cells = (pre ++ [some x]) ++ rest := by rw [c1, hc]; simp [List.set_append]
    obtain ⟨v2, h2, f2, c2⟩ := ih v1 (pre ++ [some x]) rest c1' (by simpa using h)
    refine ⟨v2, ?_, f1.trans f2, ?_⟩
    · simp only [writeAll, h1, Option.bind_eq_bind, Option.bind_some]
      simpa using h2
    · rw [c2]; simp

theorem copyCells_spec (v : Vec α) (l : List α) (rest) (hc : v.cells = l.map some ++ rest) (src dst n : Nat)
    (hd : dst ≤ src) (hs : src + n = l.length) :
    ∃ v' rest', copyCells v src dst n = some v' ∧ Frame v v' ∧ v'.cells = (l.take dst ++ l.drop src).map some ++ rest' := by
  by_cases hn : n = 0
  · refine ⟨v, (l.drop dst).map some ++ rest, by simp [copyCells, hn], .refl v, ?_⟩
    have : l.drop src = [] := by apply List.drop_eq_nil_of_le; omega
    rw [hc, this, List.append_nil, ← List.append_assoc, ← List.map_append, List.take_append_drop]
  · have hl : v.cells.length = l.length + rest.length := by simp [hc]
    have hlen : (v.cells.take dst ++ (v.cells.drop src).take n ++ v.cells.drop (dst + n)).length = v.cells.length := by
      simp only [List.length_append, List.length_take, List.length_drop]; omega
    have := withCells_spec v _ hlen
    refine ⟨_, v.cells.drop (dst + n), ?_, this.1, ?_⟩
    · rw [copyCells, if_neg hn, if_pos (by omega)]
    · rw [this.2]
      congr 1
      rw [hc, List.map_append]
      congr 1
      · rw [List.take_append_of_le_length (by simp; omega), List.map_take]
      · rw [List.drop_append_of_le_length (by simp; omega), List.take_append_of_le_length (by simp; omega), ← List.map_drop]
        apply List.take_of_length_le
        simp; omega

/-- The vector holds the sequence `l`. -/
structure VInv (e : Env) (v : Vec α) (l : List α) : Prop where
  len : v.len = l.length
  data : ∃ rest, v.cells = l.map some ++ rest
  size : v.cells.length = v.cap
  blk : v.block.isSome = decide (v.cap ≠ 0)
  bound : e.esz * v.cap + 32 < 9223372036854775808

theorem VInv.le {e : Env} {v : Vec α} {l : List α} (h : VInv e v l) : l.length ≤ v.cap := by
  obtain ⟨rest, hr⟩ := h.data
  rw [← h.size, hr]; simp

theorem VInv.new (e : Env) : VInv e (.new : Vec α) [] := ⟨rfl, ⟨[], rfl⟩, rfl, rfl, by simp [Vec.new]⟩

/-- The number of blocks the vector owns. -/
def live (v : Vec α) : Nat := if v.cap = 0 then 0 else 1

/-- Blocks obtained from the allocator are released or owned by the vector. -/
def Bal (s : St α) : Prop := s.allocs = s.frees + live s.v

theorem mod_W {n : Nat} (h : n < W) : n % W = n := Nat.mod_eq_of_lt h

theorem bytes_eq {e : Env} {n : Nat} (h : e.esz * n + 32 < W) : bytes e n = 32 + e.esz * n := by
  rw [bytes, mod_W (show e.esz * n < W by omega), mod_W (by omega)]

theorem room_eq {e : Env} (h0 : 0 < e.esz) (n : Nat) : room e (32 + e.esz * n) = n := by
  rw [room, Nat.add_sub_cancel_left, Nat.mul_div_cancel_left n h0]

/-- What `try_reserve` does. -/
structure Reserved (e : Env) (s s' : St α) (l : List α) (a : Nat) : Prop where
  inv : VInv e s'.v l
  room : a ≤ s'.v.cap - l.length
  bal : Bal s'
  dropped : s'.dropped = s.dropped
  refused : s'.refused = s.refused
  frees : s'.frees = s.frees

theorem tryReserve_spec {e : Env} (he : Sane e) (s : St α) (l : List α) (h : VInv e s.v l) (hb : Bal s) (a : Nat)
    (ha : e.esz * a < 9223372036854775808) :
    ((tryReserve e s a).1 = true ∧ Reserved e s (tryReserve e s a).2 l a) ∨
    ((tryReserve e s a).1 = false ∧ (tryReserve e s a).2 = { s with tries := s.tries + 1, refused := s.refused + 1 }) := by
  obtain ⟨⟨h0, _⟩, hok⟩ := he
  have hle := h.le
  have hmul : e.esz * l.length ≤ e.esz * s.v.cap := Nat.mul_le_mul_left _ hle
  have hbound := h.bound
  have hsum : e.esz * (l.length + a) = e.esz * l.length + e.esz * a := Nat.mul_add _ _ _
  have hge : l.length + a ≤ e.esz * (l.length + a) := Nat.le_mul_of_pos_left _ h0
  unfold tryReserve
  split
  · rename_i hlt
    dsimp only
    have hlt' : s.v.cap - l.length < a := by rw [← h.len]; exact hlt
    have e1 : (s.v.len + a) % W = l.length + a := by rw [h.len]; exact mod_W (by unfold W; omega)
    have e2 : bytes e (l.length + a) = 32 + e.esz * (l.length + a) := bytes_eq (by unfold W; omega)
    rw [e1, e2]
    split
    · rename_i hg
      have hg := hok _ _ hg
      left
      refine ⟨rfl, ⟨rfl.trans h.len, ?_, ?_, ?_, ?_⟩, ?_, ?_, rfl, rfl, rfl⟩
      · obtain ⟨rest, hr⟩ := h.data
        have hsz := h.size
        refine ⟨rest ++ List.replicate (l.length + a - s.v.cells.length) none, ?_⟩
        have ht : s.v.cells.take (l.length + a) = s.v.cells := List.take_of_length_le (by omega)
        show s.v.cells.take (room e _) ++ List.replicate (room e _ - (s.v.cells.take (room e _)).length) none = _
        rw [room_eq h0, ht, ← List.append_assoc, ← hr]
      · have : s.v.cells.length = s.v.cap := h.size
        simp only [Vec.cells]
        rw [room_eq h0]
        change (s.v.cells.take _ ++ List.replicate (l.length + a - (s.v.cells.take _).length) none).length = _
        simp only [List.length_append, List.length_take, List.length_replicate]
        omega
      · show true = decide (l.length + a ≠ 0)
        symm; rw [decide_eq_true_eq]; omega
      · show e.esz * (l.length + a) + 32 < _
        omega
      · show a ≤ l.length + a - l.length
        omega
      · unfold Bal live at *
        show (if s.v.cap = 0 then s.allocs + 1 else s.allocs) = s.frees + (if l.length + a = 0 then 0 else 1)
        split at hb <;> split <;> split <;> omega
    · right
      exact ⟨rfl, rfl⟩
  · rename_i hlt
    left
    refine ⟨rfl, h, ?_, hb, rfl, rfl, rfl⟩
    rw [← h.len]; exact Nat.le_of_not_lt hlt

theorem firstCapacity_pos (e : Env) : 0 < firstCapacity e ∧ firstCapacity e ≤ 8 := by
  unfold firstCapacity
  split
  · omega
  · rename_i h; split
    · constructor
      · apply Nat.pos_of_ne_zero; intro h'; exact h h'
      · assumption
    · omega

theorem firstCapacity_size {e : Env} (he : Sane e) : e.esz * firstCapacity e < 9223372036854775808 := by
  obtain ⟨⟨h0, h1⟩, _⟩ := he
  by_cases h : e.esz ≤ 1024
  · calc e.esz * firstCapacity e ≤ 1024 * 8 := Nat.mul_le_mul h (firstCapacity_pos e).2
      _ < _ := by omega
  · have : 1024 / e.esz = 0 := Nat.div_eq_of_lt (by omega)
    simp only [firstCapacity, this, Nat.mul_one]
    exact h1

end Verif.Vec
