import Verif.Fmt.Model
import Verif.Props.Str
import Verif.BTree.Steps
import Mathlib.Order.Nat

/-! C89: formatting shows what is there, and can be read back. -/
namespace Verif.Props.Fmt
open Verif.Fmt Verif.Vec Verif.Props.Vec

/-! ### Hexadecimal -/

/-- Texts with colons between them. -/
def joined : List (List Char) → List Char
  | [] => []
  | [x] => x
  | x :: y :: l => x ++ ':' :: joined (y :: l)

/-- What writes the text `t` to a `String` that can grow: it is appended. -/
def append (t : List Char) : Act (List Char) := fun s => (s ++ t, true)

theorem loop_append (t : α → List Char) : ∀ (l : List α) (s : List Char),
    hexLoop append (fun a => append (t a)) true l s = (s ++ joined (l.map t), true) ∧
    hexLoop append (fun a => append (t a)) false l s = (s ++ (l.map fun a => ':' :: t a).flatten, true)
  | [], s => by simp [hexLoop, joined]
  | [x], s => by simp [hexLoop, joined, andThen, append]
  | x :: y :: l, s => by
    have h2 := fun s => (loop_append t (y :: l) s)
    have hj : ∀ (z : α) (l : List α), joined ((z :: l).map t) = t z ++ (l.map fun a => ':' :: t a).flatten := by
      intro z l
      induction l generalizing z with
      | nil => simp [joined]
      | cons w l ih => 
        have := ih w
        simp only [List.map_cons] at this
        simp [joined, this]
    constructor
    · rw [hexLoop, andThen]
      simp only [append, if_true]
      rw [hj, (h2 _).2]
      simp
    · rw [hexLoop, andThen, andThen]
      simp only [append, if_true]
      rw [(h2 _).2]
      simp

/-- Each element's text, in order, with a colon between any two. -/
theorem C89_hex (t : α → List Char) (l : List α) (s : List Char) :
    hex append (fun a => append (t a)) l s = (s ++ joined (l.map t), true) := (loop_append t l s).1

/-- What writes text `t`, or fails after having written the beginning of it. -/
def Writes (act : Act (List Char)) (t : List Char) : Prop :=
  ∀ s, act s = (s ++ t, true) ∨ ∃ p, p <+: t ∧ act s = (s ++ p, false)

theorem writes_andThen {a b : Act (List Char)} {t u : List Char} (ha : Writes a t) (hb : Writes b u) : Writes (andThen a b) (t ++ u) := by
  intro s
  unfold andThen
  rcases ha s with h | ⟨p, hp, h⟩
  · rcases hb (s ++ t) with h' | ⟨q, hq, h'⟩
    · left; rw [h]; simp [h']
    · right; rw [h]; exact ⟨t ++ q, (List.prefix_append_right_inj t).2 hq, by simp [h']⟩
  · right; rw [h]; exact ⟨p, hp.trans (List.prefix_append t u), by simp⟩

theorem writes_nil : Writes (fun s => (s, true)) [] := fun s => .inl (by simp)

/-- If what is written to fails, what has been written is the beginning of the text, and the error is reported. -/
theorem C89_hex_prefix (write : List Char → Act (List Char)) (item : α → Act (List Char)) (t : α → List Char) (hw : ∀ u, Writes (write u) u)
    (hi : ∀ a, Writes (item a) (t a)) (l : List α) : Writes (hex write item l) (joined (l.map t)) := by
  have hf : ∀ l : List α, Writes (hexLoop write item false l) (l.map fun a => ':' :: t a).flatten := by
    intro l
    induction l with
    | nil => exact writes_nil
    | cons x l ih =>
      have := writes_andThen (hw [':']) (writes_andThen (hi x) ih)
      simpa [hexLoop] using this
  unfold hex
  cases l with
  | nil => exact writes_nil
  | cons x l =>
    have h := writes_andThen (hi x) (hf l)
    have hj : ∀ (z : α) (l : List α), joined ((z :: l).map t) = t z ++ (l.map fun a => ':' :: t a).flatten := by
      intro z l
      induction l generalizing z with
      | nil => simp [joined]
      | cons w l ih => 
        have := ih w
        simp only [List.map_cons] at this
        simp [joined, this]
    rw [hj]
    exact h

/-- Splits text at its first colon. -/
def cut : List Char → List Char × Option (List Char)
  | [] => ([], none)
  | c :: l => if c = ':' then ([], some l) else (c :: (cut l).1, (cut l).2)

theorem cut_none : ∀ (x : List Char), ':' ∉ x → cut x = (x, none)
  | [], _ => rfl
  | c :: x, h => by
    simp only [List.mem_cons, not_or] at h
    simp [cut, Ne.symm h.1, cut_none x h.2]

theorem cut_some : ∀ (x y : List Char), ':' ∉ x → cut (x ++ ':' :: y) = (x, some y)
  | [], _, _ => by simp [cut]
  | c :: x, y, h => by
    simp only [List.mem_cons, not_or] at h
    simp [cut, Ne.symm h.1, cut_some x y h.2]

theorem joined_inj : ∀ (l m : List (List Char)), (∀ x ∈ l, ':' ∉ x ∧ x ≠ []) → (∀ x ∈ m, ':' ∉ x ∧ x ≠ []) → joined l = joined m → l = m
  | [], [], _, _, _ => rfl
  | [], [x], _, hm, h => by exact absurd h.symm (hm x (by simp)).2
  | [], x :: y :: m, _, hm, h => by simp [joined] at h
  | [x], [], hl, _, h => by simp [joined] at h; exact absurd h (hl x (by simp)).2
  | x :: y :: l, [], _, _, h => by simp [joined] at h
  | [x], [y], _, _, h => by simpa [joined] using h
  | [x], y :: z :: m, hl, hm, h => by
    have := congrArg cut h
    simp only [joined] at this
    rw [cut_none x (hl x (by simp)).1, cut_some y _ (hm y (by simp)).1] at this
    simp at this
  | x :: z :: l, [y], hl, hm, h => by
    have := congrArg cut h
    simp only [joined] at this
    rw [cut_none y (hm y (by simp)).1, cut_some x _ (hl x (by simp)).1] at this
    simp at this
  | x :: z :: l, y :: w :: m, hl, hm, h => by
    have := congrArg cut h
    simp only [joined] at this
    rw [cut_some y _ (hm y (by simp)).1, cut_some x _ (hl x (by simp)).1] at this
    simp only [Prod.mk.injEq, Option.some.injEq] at this
    rw [this.1, joined_inj (z :: l) (w :: m) (fun a ha => hl a (by simp [List.mem_cons.1 ha])) (fun a ha => hm a (by simp [List.mem_cons.1 ha])) this.2]

/-- The elements can be told from the text, if each can from its own, and none is empty or has a colon: so it is for integers. -/
theorem C89_hex_injective (t : α → List Char) (ht : Function.Injective t) (hc : ∀ a, ':' ∉ t a ∧ t a ≠ []) (l m : List α)
    (h : hex append (fun a => append (t a)) l [] = hex append (fun a => append (t a)) m []) : l = m := by
  rw [C89_hex, C89_hex] at h
  simp only [List.nil_append, Prod.mk.injEq, and_true] at h
  have := joined_inj (l.map t) (m.map t) (by simpa using fun a _ => hc a) (by simpa using fun a _ => hc a) h
  exact List.map_inj_right (fun a b hab => ht hab) |>.1 this

/-- The text of a byte. -/
def digit (n : Nat) : Char := (['0', '1', '2', '3', '4', '5', '6', '7', '8', '9', 'a', 'b', 'c', 'd', 'e', 'f'][n]?).getD '0'

def byte (b : Fin 256) : List Char := if b.val < 16 then [digit b.val] else [digit (b.val / 16), digit (b.val % 16)]

theorem byte_ok : Function.Injective byte ∧ ∀ b, ':' ∉ byte b ∧ byte b ≠ [] := by
  constructor
  · intro a b
    revert a b
    decide +kernel
  · decide +kernel

/-- Of vectors of bytes: all the bytes can be read back. -/
theorem C89_bytes (l m : List (Fin 256)) (h : hex append (fun a => append (byte a)) l [] = hex append (fun a => append (byte a)) m []) : l = m :=
  C89_hex_injective byte byte_ok.1 byte_ok.2 l m h

/-- Of vectors of vectors they can't: what separates the vectors is what separates the bytes. -/
theorem C89_nested_refuted :
    hex append (hex append fun a => append (byte a)) [[1], [2]] [] = hex append (hex append fun a => append (byte a)) [[1, 2]] [] ∧
    hex append (hex append fun a => append (byte a)) [] [] = hex append (hex append fun a => append (byte a)) [[]] [] := by
  decide +kernel

/-! ### Trees -/

/-- The values in what `Debug` writes. -/
def vals : List (Tok α) → List α
  | [] => []
  | .chr _ :: l => vals l
  | .val v :: l => v :: vals l

theorem vals_append (l m : List (Tok α)) : vals (l ++ m) = vals l ++ vals m := by
  induction l with
  | nil => rfl
  | cons t l ih => cases t <;> simp [vals, ih]

theorem vals_commas : ∀ l : List (List (Tok α)), vals (commas l) = l.flatMap vals
  | [] => rfl
  | [x] => by simp [commas]
  | x :: y :: l => by simp [commas, vals_append, vals, vals_commas (y :: l)]

theorem vals_debugSet (l : List (List (Tok α))) : vals (debugSet l) = l.flatMap vals := by
  simp [debugSet, vals, vals_append, vals_commas]

def debugEntry (fuel : Nat) (h : BTree.Heap α) (acc : List (List (Tok α))) (e : BTree.Entry α) : Option (List (List (Tok α))) := do
  match e.smaller with
  | none => return acc ++ [[.val e.value]]
  | some s => return acc ++ [← debugNode fuel h s] ++ [[.val e.value]]

theorem debug_succ (fuel : Nat) (h : BTree.Heap α) (a : Nat) : debugNode (fuel + 1) h a = (do
    let n ← h.look a
    let es ← BTree.entries n
    let acc ← es.foldlM (debugEntry fuel h) []
    match n.greater with
    | none => return debugSet acc
    | some g => return debugSet (acc ++ [← debugNode fuel h g])) := rfl

theorem debugEntry_vals (fuel : Nat) (h : BTree.Heap α) (ih : ∀ a, (debugNode fuel h a).map vals = BTree.visit fuel h a) (acc : List (List (Tok α)))
    (e : BTree.Entry α) : (debugEntry fuel h acc e).map (·.flatMap vals) = BTree.visitEntry fuel h (acc.flatMap vals) e := by
  unfold debugEntry BTree.visitEntry
  cases e.smaller with
  | none => simp [vals]
  | some s =>
    simp only [← ih s]
    cases debugNode fuel h s <;> simp [vals]

theorem debugFold_vals (fuel : Nat) (h : BTree.Heap α) (ih : ∀ a, (debugNode fuel h a).map vals = BTree.visit fuel h a) : ∀ (es : List (BTree.Entry α))
    (acc : List (List (Tok α))), (es.foldlM (debugEntry fuel h) acc).map (·.flatMap vals) = es.foldlM (BTree.visitEntry fuel h) (acc.flatMap vals)
  | [], acc => rfl
  | e :: es, acc => by
    simp only [List.foldlM_cons]
    rw [← debugEntry_vals fuel h ih acc e]
    cases he : debugEntry fuel h acc e with
    | none => rfl
    | some acc' => exact debugFold_vals fuel h ih es acc'

/-- The values are written in the order in which the tree is visited, each once: `Debug` doesn't fail where visiting doesn't. -/
theorem C89_debug (fuel : Nat) (h : BTree.Heap α) (a : Nat) : (debugNode fuel h a).map vals = BTree.visit fuel h a := by
  induction fuel generalizing a with
  | zero => rfl
  | succ fuel ih =>
    rw [debug_succ, BTree.visit_succ]
    cases h.look a with
    | none => rfl
    | some n =>
      simp only [Option.bind_eq_bind, Option.bind_some]
      cases BTree.entries n with
      | none => rfl
      | some es =>
        simp only [Option.bind_some]
        have := debugFold_vals fuel h ih es []
        simp only [List.flatMap_nil] at this
        rw [← this]
        cases es.foldlM (debugEntry fuel h) [] with
        | none => rfl
        | some acc =>
          simp only [Option.bind_some, Option.map_some]
          cases n.greater with
          | none => simp [vals_debugSet]
          | some g =>
            simp only [← ih g]
            cases debugNode fuel h g <;> simp [vals_debugSet]

/-- So it is for the set; there is something between braces, after the name. -/
theorem C89_debug_set (fuel : Nat) (h : BTree.Heap α) (s : BTree.Set) (t : List (Tok α)) (ht : debugTree fuel h s = some t) :
    (match s.root with | none => some [] | some a => BTree.visit fuel h a) = some (vals t) ∧
    ∃ m, t = treeName.map .chr ++ .chr '{' :: m ++ [.chr '}'] := by
  have hn : vals (treeName.map (Tok.chr (α := α))) = [] := rfl
  unfold debugTree at ht
  cases hr : s.root with
  | none =>
    rw [hr] at ht
    simp only [Option.map_some, Option.some.injEq] at ht
    subst ht
    exact ⟨by simp [vals_append, hn, vals], [], by simp⟩
  | some a =>
    rw [hr] at ht
    simp only [Option.map_eq_some_iff] at ht
    obtain ⟨d, hd, rfl⟩ := ht
    refine ⟨by simp only; rw [← C89_debug, hd]; simp [vals_append, hn], ?_⟩
    cases fuel with
    | zero => cases hd
    | succ fuel =>
      have hds : ∃ l, d = debugSet l := by
        simp only [debugNode, Option.bind_eq_bind, Option.bind_eq_some_iff] at hd
        obtain ⟨n, -, es, -, acc, -, hd⟩ := hd
        cases hg : n.greater with
        | none => rw [hg] at hd; exact ⟨_, (Option.some.inj hd).symm⟩
        | some g =>
          rw [hg] at hd
          simp only [Option.bind_eq_some_iff] at hd
          obtain ⟨x, -, hd⟩ := hd
          exact ⟨_, (Option.some.inj hd).symm⟩
      obtain ⟨l, rfl⟩ := hds
      exact ⟨commas l, by simp [debugSet]⟩

/-- The text of a set after a history. -/
def shown (ops : List (BTree.Op Nat Nat)) : Option (List Nat × List (Tok Nat)) :=
  (BTree.run id ⟨false, 5⟩ 9 .new (.new :: ops)).bind fun (_, s) => (s.var 0).bind fun t =>
    (match t.root with | none => some [] | some a => BTree.visit 9 s.heap a).bind fun l => (debugTree 9 s.heap t).map fun d => (l, d)

/-- Equal sets are not shown equal: the text has the nodes of the tree, which depend on the order of insertion. -/
theorem C89_shape_refuted : ∃ a b l d d', shown a = some (l, d) ∧ shown b = some (l, d') ∧ d ≠ d' := by
  refine ⟨[.insert 0 1, .insert 0 2, .insert 0 3, .insert 0 4, .insert 0 5, .insert 0 6, .insert 0 7],
    [.insert 0 7, .insert 0 6, .insert 0 5, .insert 0 4, .insert 0 3, .insert 0 2, .insert 0 1], [1, 2, 3, 4, 5, 6, 7],
    ((shown [.insert 0 1, .insert 0 2, .insert 0 3, .insert 0 4, .insert 0 5, .insert 0 6, .insert 0 7]).map (·.2)).getD [],
    ((shown [.insert 0 7, .insert 0 6, .insert 0 5, .insert 0 4, .insert 0 3, .insert 0 2, .insert 0 1]).map (·.2)).getD [], ?_, ?_, ?_⟩ <;> decide +kernel

/-! ### Writing -/

/-- Writing bytes to a vector appends them all and says how many, or, if memory is refused, leaves the vector as it was and is an error. -/
theorem C89_write {e : Env} (he : Sane e) (s : St UInt8) (l : List UInt8) (h : VInv e s.v l) (hb : Bal s) (buf : List UInt8)
    (hn : e.esz * buf.length < 9223372036854775808) :
    ∃ r s' l', ioWrite e s buf = some (r, s') ∧ VInv e s'.v l' ∧ Bal s' ∧
      (if s'.refused ≠ s.refused then r = none ∧ l' = l else r = some buf.length ∧ l' = l ++ buf) := by
  obtain ⟨r, s', l', h1, h2, h3, h4⟩ := Str.copyExtend_good he s l h hb buf hn
  unfold ioWrite
  rw [h1]
  split at h4
  · next hr => obtain ⟨rfl, rfl⟩ := h4; exact ⟨_, _, _, rfl, h2, h3, by rw [if_pos hr]; exact ⟨rfl, rfl⟩⟩
  · next hr => obtain ⟨rfl, rfl⟩ := h4; exact ⟨_, _, _, rfl, h2, h3, by rw [if_neg hr]; exact ⟨rfl, rfl⟩⟩

/-! ### Examples -/

example : hex append (fun a => append (byte a)) [0, 17, 255] ['>'] = (['>', '0', ':', '1', '1', ':', 'f', 'f'], true) := by decide +kernel

/-- A writer with room for three characters. -/
def small (t : List Char) : Act (List Char) := fun s => if (s ++ t).length ≤ 3 then (s ++ t, true) else (s, false)

example : hex small (fun a => small (byte a)) [1, 2, 3] [] = (['1', ':', '2'], false) := by decide +kernel

example : ∀ u, Writes (small u) u := by
  intro u s
  unfold small
  split
  · exact .inl rfl
  · exact .inr ⟨[], List.nil_prefix, by simp⟩

example : shown [.insert 0 2, .insert 0 1] = some ([1, 2], [.chr 'A', .chr 'r', .chr 'c', .chr 'B', .chr 'T', .chr 'r', .chr 'e', .chr 'e', .chr 'S', .chr 'e',
    .chr 't', .chr '{', .val 1, .chr ',', .chr ' ', .val 2, .chr '}']) := by decide +kernel

end Verif.Props.Fmt
