import Verif.Vec.Shared
import Verif.Props.Boxed

/-! Property C52. -/
namespace Verif.Props.Shared
open Verif.Vec Verif.Props.Vec Verif.Props.Boxed
variable {α : Type}

/-- What the program holds: a vector or a boxed slice of the sequence `l`, or `a` strong and `w` weak handles on a slice of `l`. -/
inductive Abs (α : Type) where
  | plain (boxed : Bool) (l : List α)
  | shared (l : List α) (a w : Nat)

/-- Without handles nothing is left. -/
def norm (l : List α) (a w : Nat) : Abs α := if a = 0 ∧ w = 0 then .plain false [] else .shared l a w

def nextBoxed : BOp α → Bool → Bool
  | .box, _ => true
  | .unbox, _ | .drop, _ => false
  | _, b => b

/-- What an operation may report and leave.  Operations on handles that the program does not have are ignored. -/
def ASpec (op : AOp α) (full refused : Bool) (x : Abs α) (r : Res α) (y : Abs α) : Prop :=
  match x with
  | .plain boxed l =>
    match op with
    | .plain op => ∃ l', BSpec op boxed full refused l r l' ∧ y = .plain (nextBoxed op boxed) l'
    | .toArc =>
      if boxed then r = .unit ∧ y = x
      else if refused then r = .panic ∧ l = [] ∧ y = .plain false []
      else r = .unit ∧ y = .shared l 1 0
    | _ => r = .unit ∧ y = x
  | .shared l a w =>
    match op with
    | .toVec =>
      if a = 0 then r = .unit ∧ y = x
      else if a = 1 ∧ w = 0 then r = .unit ∧ y = .plain false l
      else r = .moved none ∧ y = x
    | .clone => r = .unit ∧ y = if a = 0 then x else .shared l (a + 1) w
    | .dropArc => r = .unit ∧ y = if a = 0 then x else norm l (a - 1) w
    | .downgrade => r = .unit ∧ y = if a = 0 then x else .shared l a (w + 1)
    | .cloneWeak => r = .unit ∧ y = if w = 0 then x else .shared l a (w + 1)
    | .dropWeak => r = .unit ∧ y = if w = 0 then x else norm l a (w - 1)
    | .upgrade =>
      if w = 0 then r = .unit ∧ y = x
      else if a = 0 then r = .moved none ∧ y = x
      else r = .unit ∧ y = .shared l (a + 1) w
    | .forceUpgrade => r = .unit ∧ y = if w = 0 then x else .shared l (a + 1) w
    | .slice => r = (if a = 0 then .unit else .refs l) ∧ y = x
    | .strongCount => r = (if a = 0 then .unit else .count a) ∧ y = x
    | .weakCount => r = (if a = 0 then .unit else .count (w + 1)) ∧ y = x
    | .isUnique => r = (if a = 0 then .unit else .count (if a = 1 ∧ w = 0 then 1 else 0)) ∧ y = x
    | .replace i z =>
      if a = 0 then r = .unit ∧ y = x
      else if a = 1 ∧ w = 0 then
        if h : i < l.length then r = .moved (some l[i]) ∧ y = .shared (l.set i z) a w else r = .panic ∧ y = x
      else r = .back z ∧ y = x
    | .plain _ | .toArc => r = .unit ∧ y = x

/-- Elements owned. -/
def Abs.owned : Abs α → List α
  | .plain _ l => l
  | .shared l a _ => if a = 0 then [] else l

/-- Elements handed over and handed back; `force_upgrade`, for `Copy` elements, brings them back. -/
def ains (op : AOp α) (x : Abs α) : List α :=
  match x with
  | .plain boxed _ =>
    match op with
    | .plain (.vec op) => if boxed then [] else op.ins
    | .plain op => BOp.ins op
    | _ => []
  | .shared l a w =>
    match op with
    | .forceUpgrade => if a = 0 ∧ w ≠ 0 then l else []
    | .replace _ z => if a = 0 then [] else [z]
    | _ => []
def aouts : AOp α → Res α → List α
  | .plain op, r => bouts op r
  | .replace _ _, .moved (some z) => [z]
  | .replace _ _, .back z => [z]
  | _, _ => []

/-- The shared block holds `l`, and its counters are the numbers of handles. -/
structure AInv (e : Env) (k : Nat) (a : Shared α) (l : List α) : Prop where
  live : a.freed = false
  strong : a.strong = a.arcs
  weak : a.weak = a.weaks + (if a.arcs = 0 then 0 else 1)
  ne : ¬ (a.arcs = 0 ∧ a.weaks = 0)
  few : a.arcs + a.weaks ≤ k
  len : a.len = l.length
  data : ∃ rest, a.b.cells = l.map some ++ rest
  size : a.b.cells.length = a.b.pcap
  bound : e.esz * a.b.pcap + 32 < 9223372036854775808

/-- The variable is as described; it has at most `k` handles. -/
def OInv (e : Env) (k : Nat) (p : Owner α × St α) (x : Abs α) : Prop :=
  match p.1, x with
  | .plain v, .plain boxed l => PInv e (v, p.2) l ∧ isBoxed v = boxed
  | .arc a, .shared l n w => AInv e k a l ∧ a.arcs = n ∧ a.weaks = w ∧ p.2.allocs = p.2.frees + 1 ∧ p.2.v = .new
  | _, _ => False

def ownFull : Owner α → Bool
  | .plain v => isFull v
  | .arc _ => false

/-- Boxed slices are only made of non-empty vectors; `ArcSlice`s of vectors with a capacity, unless the allocator is
zero-sized; and a vector is made of an `ArcSlice` only if there is a capacity to get back. -/
def Fits (e : AEnv) (p : Owner α × St α) (op : AOp α) : Prop :=
  match op, p.1 with
  | .plain op, .plain v => op.isBox = true → v = .vec → p.2.v.len ≠ 0
  | .toArc, .plain .vec => p.2.v.cap ≠ 0 ∨ e.asz = 0
  | .toVec, .arc a => a.b.pcap ≠ 0
  | _, _ => True

def AArgs (e : Env) : AOp α → Prop
  | .plain op => BArgs e op
  | _ => True

structure AGood (e : Env) (k : Nat) (p : Owner α × St α) (x : Abs α) (op : AOp α) (r : Res α) (p' : Owner α × St α) (y : Abs α) : Prop where
  inv : OInv e (k + 1) p' y
  spec : ASpec op (ownFull p.1) (decide (p'.2.refused ≠ p.2.refused)) x r y
  ledger : (p'.2.dropped ++ aouts op r ++ y.owned).Perm (p.2.dropped ++ ains op x ++ x.owned)

theorem bstep_boxed (e : Env) (p : Var α × St α) (op : BOp α) (r : Res α) (p' : Var α × St α) (h : bstep e p op = some (r, p')) :
    isBoxed p'.1 = nextBoxed op (isBoxed p.1) := by
  obtain ⟨v, s⟩ := p
  cases v <;> cases op <;>
    simp only [bstep, Option.bind_eq_bind, Option.pure_def, Option.bind_eq_some_iff, Option.some.injEq, Prod.mk.injEq, Prod.exists] at h <;>
    first
    | (obtain ⟨_, rfl⟩ := h; rfl)
    | (obtain ⟨_, _, _, _, rfl, _⟩ := h; rfl)
    | (obtain ⟨_, _, _, rfl, _⟩ := h; rfl)
    | (obtain ⟨_, _, _, rfl⟩ := h; rfl)

theorem AInv.slice_spec {e : Env} {k : Nat} {a : Shared α} {l : List α} (h : AInv e k a l) : slice a.buf 0 a.len = some l := by
  obtain ⟨rest, hd⟩ := h.data
  rw [h.len, Verif.Vec.slice_spec a.buf l rest hd _ _ (by omega)]; simp

theorem AInv.alive {e : Env} {k : Nat} {a : Shared α} {l : List α} (h : AInv e k a l) : a.live = some () := by
  simp [Shared.live, h.live]

theorem incr_eq {c : Nat} (h : c + 1 < W) : incr c = c + 1 := Nat.mod_eq_of_lt h
theorem decr_eq {c : Nat} (h0 : c ≠ 0) (h : c < W) : decr c = c - 1 := by
  unfold decr
  rw [show c + (W - 1) = (c - 1) + W by unfold W at *; omega, Nat.add_mod_right, Nat.mod_eq_of_lt (by omega)]

theorem unique_iff {e : Env} {k : Nat} {a : Shared α} {l : List α} (h : AInv e k a l) (h0 : a.arcs ≠ 0) :
    a.isUnique = decide (a.arcs = 1 ∧ a.weaks = 0) := by
  unfold Shared.isUnique
  rw [h.strong, h.weak, if_neg h0]
  by_cases h1 : a.arcs = 1 <;> by_cases h2 : a.weaks = 0 <;> simp [h1, h2]

theorem settle_inv {e : Env} {k : Nat} (a : Shared α) {l : List α} {s : St α} (n w : Nat) (hn : a.arcs = n) (hw : a.weaks = w) (hv : s.v = .new)
    (h1 : ¬ (a.arcs = 0 ∧ a.weaks = 0) → AInv e k a l ∧ s.allocs = s.frees + 1)
    (h2 : a.arcs = 0 ∧ a.weaks = 0 → s.allocs = s.frees) : OInv e k (settle a, s) (norm l n w) := by
  subst hn hw
  unfold settle norm
  by_cases h : a.arcs = 0 ∧ a.weaks = 0
  · rw [if_pos h, if_pos h]
    refine ⟨⟨?_, ?_⟩, rfl⟩
    · show VInv e s.v []; rw [hv]; exact VInv.new e
    · show Bal s; unfold Bal; rw [hv, h2 h]; rfl
  · rw [if_neg h, if_neg h]
    exact ⟨(h1 h).1, rfl, rfl, (h1 h).2, hv⟩

theorem norm_owned (l : List α) (a w : Nat) : (norm l a w).owned = if a = 0 then [] else l := by
  unfold norm
  split
  · rename_i h; simp [Abs.owned, h.1]
  · rfl

theorem owned_shared (l : List α) (a w : Nat) : (Abs.shared l a w).owned = if a = 0 then [] else l := rfl

attribute [local irreducible] decr incr

theorem dropWeak_last (a : Shared α) (s : St α) (h : a.freed = false) (hw : a.weak = 1) :
    a.dropWeak s = some ({ a with weak := decr a.weak, freed := true }, { s with frees := s.frees + 1 }) := by
  unfold Shared.dropWeak Shared.live
  rw [h]
  show (if a.weak ≠ 1 then _ else _) = _
  rw [if_neg (by simp [hw])]; rfl

theorem dropWeak_more (a : Shared α) (s : St α) (h : a.freed = false) (hw : a.weak ≠ 1) :
    a.dropWeak s = some ({ a with weak := decr a.weak }, s) := by
  unfold Shared.dropWeak Shared.live
  rw [h]
  show (if a.weak ≠ 1 then _ else _) = _
  rw [if_pos hw]; rfl

theorem dropArc_last (a : Shared α) (s : St α) (l : List α) (h : a.freed = false) (hs : a.strong = 1) (hl : slice a.buf 0 a.len = some l) :
    a.dropArc s = Shared.dropWeak { a with strong := decr a.strong } { s with dropped := s.dropped ++ l } := by
  unfold Shared.dropArc
  rw [hl]
  simp only [Shared.live, h]
  show (if a.strong ≠ 1 then _ else _) = _
  rw [if_neg (by simp [hs])]; rfl

theorem dropArc_more (a : Shared α) (s : St α) (h : a.freed = false) (hs : a.strong ≠ 1) :
    a.dropArc s = some ({ a with strong := decr a.strong }, s) := by
  unfold Shared.dropArc
  simp only [Shared.live, h]
  show (if a.strong ≠ 1 then _ else _) = _
  rw [if_pos hs]; rfl

theorem astep_dropArc (e : AEnv) (a a' : Shared α) (s s' : St α) (h0 : ¬ a.arcs = 0) (h : a.dropArc s = some (a', s')) :
    astep e (.arc a, s) .dropArc = some (.unit, settle { a' with arcs := a'.arcs - 1 }, s') := by
  simp only [astep, Shared.step, if_neg h0, h]; rfl

theorem astep_dropWeak (e : AEnv) (a a' : Shared α) (s s' : St α) (h0 : ¬ a.weaks = 0) (h : a.dropWeak s = some (a', s')) :
    astep e (.arc a, s) .dropWeak = some (.unit, settle { a' with weaks := a'.weaks - 1 }, s') := by
  simp only [astep, Shared.step, if_neg h0, h]; rfl

theorem astep_good {e : AEnv} (he : Sane e.toEnv) (k : Nat) (hk : k + 1 < TOP) (p : Owner α × St α) (x : Abs α) (h : OInv e.toEnv k p x)
    (op : AOp α) (ha : AArgs e.toEnv op) (hf : Fits e p op) :
    ∃ r p' y, astep e p op = some (r, p') ∧ AGood e.toEnv k p x op r p' y := by
  obtain ⟨o, s⟩ := p
  cases o with
  | plain v =>
    cases x with
    | shared l a w => exact h.elim
    | plain boxed l =>
      obtain ⟨hp, hbx⟩ := h
      dsimp only at hp hbx
      have skip : ∀ op' : AOp α, op' = op → (∀ q, op' ≠ .plain q) → op' ≠ .toArc →
          AGood e.toEnv k (.plain v, s) (.plain boxed l) op .unit (.plain v, s) (.plain boxed l) := by
        intro op' ho h1 h2
        subst ho
        cases op' with
        | plain q => exact absurd rfl (h1 q)
        | toArc => exact absurd rfl h2
        | _ => exact ⟨⟨hp, hbx⟩, ⟨rfl, rfl⟩, by simp [aouts, ains]⟩
      cases op with
      | plain op =>
        obtain ⟨r, p', l', h1, g⟩ := bstep_good he (v, s) l hp op ha (fun a b => hf a b)
        have hb := bstep_boxed _ _ _ _ _ h1
        refine ⟨r, (.plain p'.1, p'.2), .plain (nextBoxed op boxed) l', by simp [astep, h1], ⟨⟨g.inv, ?_⟩, ⟨l', ?_, rfl⟩, ?_⟩⟩
        · dsimp only at hb ⊢; rw [hb, hbx]
        · have := g.spec; dsimp only at this; rw [hbx] at this; exact this
        · have := g.ledger
          have e1 : ains (.plain op) (.plain boxed l) = realIns (v, s) op := by
            cases op <;> simp [ains, realIns, hbx]
          rw [e1]; exact this
      | toArc =>
        cases v with
        | boxed b =>
          refine ⟨.unit, (.plain (.boxed b), s), .plain boxed l, rfl, ⟨⟨hp, hbx⟩, ?_, by simp [aouts, ains]⟩⟩
          have : boxed = true := by rw [← hbx]; rfl
          subst this
          simp [ASpec]
        | vec =>
          have : boxed = false := by rw [← hbx]; rfl
          subst this
          obtain ⟨hv, hb⟩ := hp
          dsimp only at hv hb
          by_cases hc : s.v.cap = 0
          · have hl : l = [] := by
              have := hv.le; rw [hc] at this
              exact List.length_eq_zero_iff.1 (by omega)
            subst hl
            have hlen : s.v.len = 0 := by rw [hv.len]; rfl
            have hbal : s.allocs = s.frees := by unfold Bal live at hb; rw [if_pos hc] at hb; exact hb
            have hz : e.asz = 0 := by
              rcases hf with h0 | h0
              · exact absurd hc h0
              · exact h0
            have hbytes : bytes e.toEnv 0 = 32 := by rw [bytes_eq (by simp [W])]; simp
            by_cases hok : e.ok s.tries (bytes e.toEnv 0) = true
            · refine ⟨.unit, (.arc ⟨⟨List.replicate (room e.toEnv (bytes e.toEnv 0)) none, 0⟩, s.v.len, 1, 1, false, 1, 0⟩,
                { s with v := .new, tries := s.tries + 1, allocs := s.allocs + 1 }), .shared [] 1 0, ?_, ⟨?_, ?_, ?_⟩⟩
              · simp [astep, Vec.toArc, hc, hok, hz]
              · refine ⟨⟨rfl, rfl, rfl, by simp, by show 1 + 0 ≤ k + 1; omega, hlen, ⟨[], ?_⟩, ?_, ?_⟩, rfl, rfl, ?_, rfl⟩
                · simp [hbytes, room]
                · simp [hbytes, room]
                · simp
                · show s.allocs + 1 = s.frees + 1; rw [hbal]
              · simp [ASpec]
              · simp [aouts, ains, Abs.owned]
            · refine ⟨.panic, (.plain .vec, { s with v := .new, tries := s.tries + 1, refused := s.refused + 1 }), .plain false [], ?_, ⟨?_, ?_, ?_⟩⟩
              · simp [astep, Vec.toArc, hc, hok]
              · exact ⟨⟨VInv.new _, hbal⟩, rfl⟩
              · simp [ASpec]
              · simp [aouts, ains, Abs.owned]
          · have hbk := hv.blk
            cases hblk : s.v.block with
            | none => simp [hblk, hc] at hbk
            | some b =>
              have hbal : s.allocs = s.frees + 1 := by unfold Bal live at hb; rw [if_neg hc] at hb; exact hb
              refine ⟨.unit, (.arc ⟨{ b with pcap := s.v.cap }, s.v.len, 1, 1, false, 1, 0⟩, { s with v := .new }), .shared l 1 0, ?_, ⟨?_, ?_, ?_⟩⟩
              · simp [astep, Vec.toArc, hc, hblk]
              · obtain ⟨rest, hd⟩ := hv.data
                refine ⟨⟨rfl, rfl, rfl, by simp, by show 1 + 0 ≤ k + 1; omega, hv.len, ⟨rest, ?_⟩, ?_, hv.bound⟩, rfl, rfl, hbal, rfl⟩
                · rw [← hd]; simp [Vec.cells, hblk]
                · have := hv.size; simpa [Vec.cells, hblk] using this
              · simp [ASpec]
              · simp [aouts, ains, Abs.owned]
      | _ => exact ⟨_, _, _, rfl, skip _ rfl (fun _ h => nomatch h) (fun h => nomatch h)⟩
  | arc a =>
    cases x with
    | plain boxed l => exact h.elim
    | shared l n w =>
      obtain ⟨hi, rfl, rfl, hbal, hnew⟩ := h
      dsimp only at hi hbal hnew
      have hT : TOP + TOP = W := by simp [TOP, W]
      have hpos : 0 < TOP := by unfold TOP; omega
      have hal := hi.alive
      have hfew := hi.few
      have hst := hi.strong
      have hwk := hi.weak
      have same : OInv e.toEnv (k + 1) (.arc a, s) (.shared l a.arcs a.weaks) :=
        ⟨⟨hi.live, hi.strong, hi.weak, hi.ne, by omega, hi.len, hi.data, hi.size, hi.bound⟩, rfl, rfl, hbal, hnew⟩
      cases op with
      | plain op =>
        refine ⟨.unit, (.arc a, s), .shared l a.arcs a.weaks, by simp [astep, Shared.step], ⟨same, ⟨rfl, rfl⟩, ?_⟩⟩
        simp [aouts, ains, bouts_unit]
      | toArc => exact ⟨.unit, (.arc a, s), .shared l a.arcs a.weaks, by simp [astep, Shared.step], ⟨same, ⟨rfl, rfl⟩, by simp [aouts, ains]⟩⟩
      | toVec =>
        by_cases h0 : a.arcs = 0
        · exact ⟨.unit, (.arc a, s), .shared l a.arcs a.weaks, by simp [astep, Shared.step, h0], ⟨same, by simp [ASpec, h0], by simp [aouts, ains]⟩⟩
        · have hu := unique_iff hi h0
          by_cases hq : a.arcs = 1 ∧ a.weaks = 0
          · refine ⟨.unit, (.plain .vec, { s with v := ⟨some a.b, a.len, a.b.pcap⟩ }), .plain false l, ?_, ⟨⟨⟨?_, ?_⟩, rfl⟩, ?_, ?_⟩⟩
            · simp [astep, Shared.step, h0, Shared.toVec, hal, hu, hq]
            · obtain ⟨rest, hd⟩ := hi.data
              refine ⟨hi.len, ⟨rest, hd⟩, hi.size, ?_, hi.bound⟩
              have : a.b.pcap ≠ 0 := hf
              simp [this]
            · have : a.b.pcap ≠ 0 := hf
              show s.allocs = s.frees + live ⟨some a.b, a.len, a.b.pcap⟩
              unfold live; rw [if_neg this]; exact hbal
            · simp [ASpec, hq]
            · simp [aouts, ains, Abs.owned, h0]
          · refine ⟨.moved none, (.arc a, s), .shared l a.arcs a.weaks, ?_, ⟨same, ?_, by simp [aouts, ains]⟩⟩
            · simp [astep, Shared.step, h0, Shared.toVec, hal, hu, hq]
            · simp only [ASpec]; rw [if_neg h0, if_neg hq]; simp
      | clone =>
        by_cases h0 : a.arcs = 0
        · exact ⟨.unit, (.arc a, s), .shared l a.arcs a.weaks, by simp [astep, Shared.step, h0], ⟨same, by simp [ASpec, h0], by simp [aouts, ains]⟩⟩
        · refine ⟨.unit, (.arc { a with strong := incr a.strong, arcs := a.arcs + 1 }, s), .shared l (a.arcs + 1) a.weaks, ?_, ⟨?_, ?_, ?_⟩⟩
          · simp [astep, Shared.step, h0, hal]
          · refine ⟨⟨hi.live, ?_, ?_, ?_, ?_, hi.len, hi.data, hi.size, hi.bound⟩, rfl, rfl, hbal, hnew⟩
            · show incr a.strong = a.arcs + 1
              rw [incr_eq (by omega), hst]
            · show a.weak = _; rw [hwk, if_neg h0]; simp
            · simp
            · show a.arcs + 1 + a.weaks ≤ k + 1; omega
          · simp [ASpec, h0]
          · simp [aouts, ains, Abs.owned, h0]
      | dropArc =>
        by_cases h0 : a.arcs = 0
        · exact ⟨.unit, (.arc a, s), .shared l a.arcs a.weaks, by simp [astep, Shared.step, h0], ⟨same, by simp [ASpec, h0], by simp [aouts, ains]⟩⟩
        · obtain ⟨ds, hds0⟩ : ∃ d, d = decr a.strong := ⟨_, rfl⟩
          obtain ⟨dw, hdw0⟩ : ∃ d, d = decr a.weak := ⟨_, rfl⟩
          have hds : ds = a.arcs - 1 := by rw [hds0, decr_eq (by omega) (by omega), hst]
          by_cases h1 : a.arcs = 1
          · have hdw : dw = a.weaks := by rw [hdw0, decr_eq (by rw [hwk, if_neg h0]; omega) (by rw [hwk, if_neg h0]; omega), hwk, if_neg h0]; omega
            have hsl := hi.slice_spec
            by_cases hw0 : a.weaks = 0
            · have hw1 : a.weak = 1 := by rw [hwk, if_neg h0, hw0]
              refine ⟨.unit, (settle { a with strong := ds, weak := dw, freed := true, arcs := a.arcs - 1 },
                { s with dropped := s.dropped ++ l, frees := s.frees + 1 }), norm l (a.arcs - 1) a.weaks, ?_, ⟨?_, ?_, ?_⟩⟩
              · rw [hds0, hdw0]
                have q := (dropArc_last a s l hi.live (by omega) hsl).trans (dropWeak_last _ _ hi.live hw1)
                have q2 := astep_dropArc e a _ s _ h0 q
                exact q2
              · refine settle_inv _ _ _ rfl rfl hnew (fun hne => absurd ⟨?_, hw0⟩ hne) (fun _ => hbal)
                show a.arcs - 1 = 0; omega
              · simp [ASpec, h0]
              · simp [aouts, ains, norm_owned, owned_shared, h1]
            · have hw1 : a.weak ≠ 1 := by rw [hwk, if_neg h0]; omega
              refine ⟨.unit, (settle { a with strong := ds, weak := dw, arcs := a.arcs - 1 },
                { s with dropped := s.dropped ++ l }), norm l (a.arcs - 1) a.weaks, ?_, ⟨?_, ?_, ?_⟩⟩
              · rw [hds0, hdw0]
                have q := (dropArc_last a s l hi.live (by omega) hsl).trans (dropWeak_more _ _ hi.live hw1)
                have q2 := astep_dropArc e a _ s _ h0 q
                exact q2
              · refine settle_inv _ _ _ rfl rfl hnew (fun hne => ⟨⟨hi.live, ?_, ?_, hne, ?_, hi.len, hi.data, hi.size, hi.bound⟩, hbal⟩) (fun hq => absurd hq.2 hw0)
                · exact hds
                · show dw = _; rw [hdw]; simp [h1]
                · show a.arcs - 1 + a.weaks ≤ k + 1; omega
              · simp [ASpec, h0]
              · simp [aouts, ains, norm_owned, owned_shared, h1]
          · have hs1 : a.strong ≠ 1 := by omega
            refine ⟨.unit, (settle { a with strong := ds, arcs := a.arcs - 1 }, s), norm l (a.arcs - 1) a.weaks, ?_, ⟨?_, ?_, ?_⟩⟩
            · rw [hds0]
              have q := dropArc_more a s hi.live hs1
              have q2 := astep_dropArc e a _ s _ h0 q
              exact q2
            · refine settle_inv _ _ _ rfl rfl hnew (fun hne => ⟨⟨hi.live, hds, ?_, hne, ?_, hi.len, hi.data, hi.size, hi.bound⟩, hbal⟩) (fun hq => ?_)
              · show a.weak = _; rw [hwk, if_neg h0, if_neg]; show ¬ a.arcs - 1 = 0; omega
              · show a.arcs - 1 + a.weaks ≤ k + 1; omega
              · have : a.arcs - 1 = 0 := hq.1
                omega
            · simp [ASpec, h0]
            · simp [aouts, ains, norm_owned, owned_shared, h0, show ¬ a.arcs - 1 = 0 by omega]
      | downgrade =>
        by_cases h0 : a.arcs = 0
        · exact ⟨.unit, (.arc a, s), .shared l a.arcs a.weaks, by simp [astep, Shared.step, h0], ⟨same, by simp [ASpec, h0], by simp [aouts, ains]⟩⟩
        · refine ⟨.unit, (.arc { a with weak := incr a.weak, weaks := a.weaks + 1 }, s), .shared l a.arcs (a.weaks + 1), ?_, ⟨?_, ?_, ?_⟩⟩
          · simp [astep, Shared.step, h0, hal]
          · refine ⟨⟨hi.live, hi.strong, ?_, ?_, ?_, hi.len, hi.data, hi.size, hi.bound⟩, rfl, rfl, hbal, hnew⟩
            · show incr a.weak = a.weaks + 1 + _
              rw [incr_eq (by rw [hwk, if_neg h0]; omega), hwk]; dsimp only; omega
            · simp
            · show a.arcs + (a.weaks + 1) ≤ k + 1; omega
          · simp [ASpec, h0]
          · simp [aouts, ains, Abs.owned]
      | cloneWeak =>
        by_cases h0 : a.weaks = 0
        · exact ⟨.unit, (.arc a, s), .shared l a.arcs a.weaks, by simp [astep, Shared.step, h0], ⟨same, by simp [ASpec, h0], by simp [aouts, ains]⟩⟩
        · refine ⟨.unit, (.arc { a with weak := incr a.weak, weaks := a.weaks + 1 }, s), .shared l a.arcs (a.weaks + 1), ?_, ⟨?_, ?_, ?_⟩⟩
          · simp [astep, Shared.step, h0, hal]
          · refine ⟨⟨hi.live, hi.strong, ?_, ?_, ?_, hi.len, hi.data, hi.size, hi.bound⟩, rfl, rfl, hbal, hnew⟩
            · show incr a.weak = a.weaks + 1 + _
              rw [incr_eq (by rw [hwk]; split <;> omega), hwk]; dsimp only; omega
            · simp
            · show a.arcs + (a.weaks + 1) ≤ k + 1; omega
          · simp [ASpec, h0]
          · simp [aouts, ains, Abs.owned]
      | dropWeak =>
        by_cases h0 : a.weaks = 0
        · exact ⟨.unit, (.arc a, s), .shared l a.arcs a.weaks, by simp [astep, Shared.step, h0], ⟨same, by simp [ASpec, h0], by simp [aouts, ains]⟩⟩
        · obtain ⟨dw, hdw0⟩ : ∃ d, d = decr a.weak := ⟨_, rfl⟩
          have hdw : dw = a.weak - 1 := by rw [hdw0]; exact decr_eq (by omega) (by rw [hwk]; split <;> omega)
          by_cases hw1 : a.weak = 1
          · have ha0 : a.arcs = 0 ∧ a.weaks = 1 := by
              rw [hwk] at hw1
              by_cases hz : a.arcs = 0
              · rw [if_pos hz] at hw1; omega
              · rw [if_neg hz] at hw1; omega
            refine ⟨.unit, (settle { a with weak := dw, freed := true, weaks := a.weaks - 1 },
              { s with frees := s.frees + 1 }), norm l a.arcs (a.weaks - 1), ?_, ⟨?_, ?_, ?_⟩⟩
            · rw [hdw0]
              have q := dropWeak_last a s hi.live hw1
              have q2 := astep_dropWeak e a _ s _ h0 q
              exact q2
            · refine settle_inv _ _ _ rfl rfl hnew (fun hne => absurd ⟨ha0.1, ?_⟩ hne) (fun _ => hbal)
              show a.weaks - 1 = 0; omega
            · simp [ASpec, h0]
            · simp [aouts, ains, norm_owned, owned_shared]
          · refine ⟨.unit, (settle { a with weak := dw, weaks := a.weaks - 1 }, s), norm l a.arcs (a.weaks - 1), ?_, ⟨?_, ?_, ?_⟩⟩
            · rw [hdw0]
              have q := dropWeak_more a s hi.live hw1
              have q2 := astep_dropWeak e a _ s _ h0 q
              exact q2
            · refine settle_inv _ _ _ rfl rfl hnew (fun hne => ⟨⟨hi.live, hi.strong, ?_, hne, ?_, hi.len, hi.data, hi.size, hi.bound⟩, hbal⟩) (fun hq => ?_)
              · show dw = a.weaks - 1 + _
                rw [hdw, hwk]; dsimp only; omega
              · show a.arcs + (a.weaks - 1) ≤ k + 1; omega
              · exfalso
                have q1 : a.arcs = 0 := hq.1
                have q2 : a.weaks - 1 = 0 := hq.2
                rw [if_pos q1] at hwk; omega
            · simp [ASpec, h0]
            · simp [aouts, ains, norm_owned, owned_shared]
      | upgrade =>
        by_cases h0 : a.weaks = 0
        · exact ⟨.unit, (.arc a, s), .shared l a.arcs a.weaks, by simp [astep, Shared.step, h0], ⟨same, by simp [ASpec, h0], by simp [aouts, ains]⟩⟩
        · by_cases ha0 : a.arcs = 0
          · have : a.strong = 0 := by omega
            refine ⟨.moved none, (.arc a, s), .shared l a.arcs a.weaks, ?_, ⟨same, by simp [ASpec, h0, ha0], by simp [aouts, ains]⟩⟩
            have ea : ({ a with strong := 0 } : Shared α) = a := by cases a; simp at this; simp [this]
            simp [astep, Shared.step, h0, Shared.upgrade, hal, this, ea]
          · have hs0 : ¬ (a.strong = 0 ∨ a.strong = TOP) := by omega
            have hs : clearTop (incr (orTop a.strong)) = a.arcs + 1 := by
              have e1 : orTop a.strong = a.strong + TOP := by unfold orTop; rw [if_pos (by omega)]
              rw [e1, incr_eq (by omega)]
              unfold clearTop; rw [if_neg (by omega)]; omega
            refine ⟨.unit, (.arc { a with strong := clearTop (incr (orTop a.strong)), arcs := a.arcs + 1 }, s), .shared l (a.arcs + 1) a.weaks, ?_, ⟨?_, ?_, ?_⟩⟩
            · simp [astep, Shared.step, h0, Shared.upgrade, hal, hs0]
            · refine ⟨⟨hi.live, hs, ?_, ?_, ?_, hi.len, hi.data, hi.size, hi.bound⟩, rfl, rfl, hbal, hnew⟩
              · show a.weak = _; rw [hwk, if_neg ha0]; simp
              · simp
              · show a.arcs + 1 + a.weaks ≤ k + 1; omega
            · simp [ASpec, h0, ha0]
            · simp [aouts, ains, Abs.owned, ha0]
      | forceUpgrade =>
        by_cases h0 : a.weaks = 0
        · exact ⟨.unit, (.arc a, s), .shared l a.arcs a.weaks, by simp [astep, Shared.step, h0], ⟨same, by simp [ASpec, h0], by simp [aouts, ains, h0]⟩⟩
        · have hs : incr a.strong = a.arcs + 1 := by rw [incr_eq (by omega), hst]
          by_cases ha0 : a.arcs = 0
          · have hs0 : a.strong = 0 := by omega
            have hw : incr a.weak = a.weaks + 1 := by rw [incr_eq (by rw [hwk, if_pos ha0]; omega), hwk, if_pos ha0]
            refine ⟨.unit, (.arc { a with strong := incr a.strong, weak := incr a.weak, arcs := a.arcs + 1 }, s), .shared l (a.arcs + 1) a.weaks, ?_, ⟨?_, ?_, ?_⟩⟩
            · simp [astep, Shared.step, h0, Shared.forceUpgrade, hal, hs0]
            · refine ⟨⟨hi.live, hs, ?_, ?_, ?_, hi.len, hi.data, hi.size, hi.bound⟩, rfl, rfl, hbal, hnew⟩
              · show incr a.weak = _; rw [hw]; simp
              · simp
              · show a.arcs + 1 + a.weaks ≤ k + 1; omega
            · simp [ASpec, h0]
            · simp [aouts, ains, Abs.owned, ha0, h0]
          · have hs0 : ¬ (a.strong = 0 ∨ a.strong = TOP) := by omega
            refine ⟨.unit, (.arc { a with strong := incr a.strong, arcs := a.arcs + 1 }, s), .shared l (a.arcs + 1) a.weaks, ?_, ⟨?_, ?_, ?_⟩⟩
            · simp [astep, Shared.step, h0, Shared.forceUpgrade, hal, hs0]
            · refine ⟨⟨hi.live, hs, ?_, ?_, ?_, hi.len, hi.data, hi.size, hi.bound⟩, rfl, rfl, hbal, hnew⟩
              · show a.weak = _; rw [hwk, if_neg ha0]; simp
              · simp
              · show a.arcs + 1 + a.weaks ≤ k + 1; omega
            · simp [ASpec, h0]
            · simp [aouts, ains, Abs.owned, ha0]
      | slice =>
        by_cases h0 : a.arcs = 0
        · exact ⟨.unit, (.arc a, s), .shared l a.arcs a.weaks, by simp [astep, Shared.step, h0], ⟨same, by simp [ASpec, h0], by simp [aouts, ains]⟩⟩
        · exact ⟨.refs l, (.arc a, s), .shared l a.arcs a.weaks, by simp [astep, Shared.step, h0, hal, hi.slice_spec], ⟨same, by simp [ASpec, h0], by simp [aouts, ains]⟩⟩
      | strongCount =>
        by_cases h0 : a.arcs = 0
        · exact ⟨.unit, (.arc a, s), .shared l a.arcs a.weaks, by simp [astep, Shared.step, h0], ⟨same, by simp [ASpec, h0], by simp [aouts, ains]⟩⟩
        · exact ⟨.count a.strong, (.arc a, s), .shared l a.arcs a.weaks, by simp [astep, Shared.step, h0, hal], ⟨same, by simp [ASpec, h0, hst], by simp [aouts, ains]⟩⟩
      | weakCount =>
        by_cases h0 : a.arcs = 0
        · exact ⟨.unit, (.arc a, s), .shared l a.arcs a.weaks, by simp [astep, Shared.step, h0], ⟨same, by simp [ASpec, h0], by simp [aouts, ains]⟩⟩
        · exact ⟨.count a.weak, (.arc a, s), .shared l a.arcs a.weaks, by simp [astep, Shared.step, h0, hal], ⟨same, by simp [ASpec, h0, hwk], by simp [aouts, ains]⟩⟩
      | isUnique =>
        by_cases h0 : a.arcs = 0
        · exact ⟨.unit, (.arc a, s), .shared l a.arcs a.weaks, by simp [astep, Shared.step, h0], ⟨same, by simp [ASpec, h0], by simp [aouts, ains]⟩⟩
        · exact ⟨.count (if a.isUnique then 1 else 0), (.arc a, s), .shared l a.arcs a.weaks, by simp [astep, Shared.step, h0, hal],
            ⟨same, by simp [ASpec, h0, unique_iff hi h0], by simp [aouts, ains]⟩⟩
      | replace i z =>
        by_cases h0 : a.arcs = 0
        · exact ⟨.unit, (.arc a, s), .shared l a.arcs a.weaks, by simp [astep, Shared.step, h0], ⟨same, by simp [ASpec, h0], by simp [aouts, ains, h0]⟩⟩
        · have hu := unique_iff hi h0
          by_cases hq : a.arcs = 1 ∧ a.weaks = 0
          · obtain ⟨rest, hd⟩ := hi.data
            by_cases hlt : i < l.length
            · have hr := read_spec a.buf l rest hd i hlt
              refine ⟨.moved (some l[i]), (.arc { a with b := { a.b with cells := a.b.cells.set i (some z) } }, s), .shared (l.set i z) a.arcs a.weaks, ?_, ⟨?_, ?_, ?_⟩⟩
              · simp [astep, Shared.step, h0, hal, hu, hq, hi.len, hlt, hr]
              · refine ⟨⟨hi.live, hi.strong, hi.weak, hi.ne, by show a.arcs + a.weaks ≤ k + 1; omega, by simp [hi.len], ⟨rest, ?_⟩, ?_, hi.bound⟩, rfl, rfl, hbal, hnew⟩
                · show a.b.cells.set i (some z) = _
                  rw [hd, List.set_append_left _ _ (by simpa using hlt), List.map_set]
                · simpa using hi.size
              · simp [ASpec, hq, hlt]
              · simp only [aouts, ains, owned_shared, if_neg h0, List.append_assoc]
                refine List.Perm.append_left _ ?_
                have e1 : l = l.take i ++ l[i] :: l.drop (i + 1) := by simp
                have e2 : l.set i z = l.take i ++ z :: l.drop (i + 1) := by
                  rw [List.set_eq_take_append_cons_drop, if_pos hlt]
                rw [e2]
                refine List.Perm.trans ?_ (List.Perm.append_left [z] (List.Perm.of_eq e1.symm))
                refine List.Perm.trans (List.Perm.cons _ List.perm_middle) ?_
                refine List.Perm.trans (List.Perm.swap _ _ _) ?_
                exact List.Perm.cons _ List.perm_middle.symm
            · refine ⟨.panic, (.arc a, { s with dropped := s.dropped ++ [z] }), .shared l a.arcs a.weaks, ?_, ⟨?_, ?_, ?_⟩⟩
              · simp [astep, Shared.step, h0, hal, hu, hq, hi.len, hlt]
              · exact same
              · simp [ASpec, hq, hlt]
              · simp [aouts, ains, h0]
          · refine ⟨.back z, (.arc a, s), .shared l a.arcs a.weaks, ?_, ⟨same, ?_, by simp [aouts, ains, h0]⟩⟩
            · simp [astep, Shared.step, h0, hal, hu, hq]
            · simp only [ASpec]; rw [if_neg h0, if_neg hq]; simp

theorem ledger_chain {D0 D1 D2 A B I J l0 l1 l2 : List α} (h1 : (D1 ++ A ++ l1).Perm (D0 ++ I ++ l0))
    (h2 : (D2 ++ B ++ l2).Perm (D1 ++ J ++ l1)) : (D2 ++ (A ++ B) ++ l2).Perm (D0 ++ (I ++ J) ++ l0) := by
  have e1 : (D2 ++ (A ++ B) ++ l2).Perm (A ++ (D2 ++ B ++ l2)) := by
    simp only [← List.append_assoc]
    exact (List.perm_append_comm.append_right _).append_right _
  refine e1.trans ((h2.append_left _).trans ?_)
  have e2 : (A ++ (D1 ++ J ++ l1)).Perm (J ++ (D1 ++ A ++ l1)) := by
    refine List.Perm.trans (l₂ := A ++ (J ++ D1 ++ l1)) ?_ ?_
    · exact ((List.perm_append_comm).append_right _).append_left _
    · simp only [← List.append_assoc]
      refine List.Perm.append_right _ ?_
      refine ((List.perm_append_comm (l₁ := A)).append_right _).trans ?_
      simp only [List.append_assoc]
      exact List.perm_append_comm.append_left _
  refine e2.trans ((h1.append_left _).trans ?_)
  simp only [← List.append_assoc]
  refine List.Perm.append_right _ ?_
  simp only [List.append_assoc]
  refine List.perm_append_comm.trans ?_
  simp only [List.append_assoc]
  exact List.Perm.refl _

/-- Every operation of the history fits. -/
def AllFits (e : AEnv) (p : Owner α × St α) : List (AOp α) → Prop
  | [] => True
  | op :: ops => Fits e p op ∧ ∀ r p', astep e p op = some (r, p') → AllFits e p' ops

/-- The reports of a history are those of the specification, which goes from `x` to `y`; `I` and `O` are the elements handed over and
handed back. -/
def ASpecRun (e : AEnv) (p : Owner α × St α) : List (AOp α) → Abs α → List (Res α) → Abs α → List α → List α → Prop
  | [], x, rs, y, I, O => rs = [] ∧ y = x ∧ I = [] ∧ O = []
  | op :: ops, x, rs, y, I, O => ∃ r rs' p' m I' O', rs = r :: rs' ∧ I = ains op x ++ I' ∧ O = aouts op r ++ O' ∧
    astep e p op = some (r, p') ∧ ASpec op (ownFull p.1) (decide (p'.2.refused ≠ p.2.refused)) x r m ∧ ASpecRun e p' ops m rs' y I' O'

theorem arun_good {e : AEnv} (he : Sane e.toEnv) (ops : List (AOp α)) (ha : ∀ op ∈ ops, AArgs e.toEnv op) (k : Nat) (hk : k + ops.length < TOP)
    (p : Owner α × St α) (x : Abs α) (h : OInv e.toEnv k p x) (hf : AllFits e p ops) :
    ∃ rs p' y I O, arun e p ops = some (rs, p') ∧ OInv e.toEnv (k + ops.length) p' y ∧ ASpecRun e p ops x rs y I O ∧
      (p'.2.dropped ++ O ++ y.owned).Perm (p.2.dropped ++ I ++ x.owned) := by
  induction ops generalizing p x k with
  | nil => exact ⟨[], p, x, [], [], rfl, h, ⟨rfl, rfl, rfl, rfl⟩, List.Perm.refl _⟩
  | cons op ops ih =>
    simp only [List.length_cons] at hk ⊢
    obtain ⟨r, p1, x1, h1, g⟩ := astep_good he k (by omega) p x h op (ha op (by simp)) hf.1
    obtain ⟨rs, p2, x2, I, O, h2, i2, c2, q2⟩ := ih (fun o ho => ha o (by simp [ho])) (k + 1) (by omega) p1 x1 g.inv (hf.2 r p1 h1)
    refine ⟨r :: rs, p2, x2, ains op x ++ I, aouts op r ++ O, by simp [arun, h1, h2], ?_, ⟨r, rs, p1, x1, I, O, rfl, rfl, rfl, h1, g.spec, c2⟩, ?_⟩
    · rw [show k + (ops.length + 1) = k + 1 + ops.length by omega]; exact i2
    · exact ledger_chain g.ledger q2

/-- The handles that the program still has, dropped one after the other. -/
def dropAll : Nat → Nat → List (AOp α)
  | 0, 0 => [.plain .drop]
  | 0, w + 1 => .dropWeak :: dropAll 0 w
  | a + 1, w => .dropArc :: dropAll a w

def Abs.strongs : Abs α → Nat
  | .plain _ _ => 0
  | .shared _ a _ => a
def Abs.weaks : Abs α → Nat
  | .plain _ _ => 0
  | .shared _ _ w => w

theorem dropAll_good {e : AEnv} (he : Sane e.toEnv) (n : Nat) (k : Nat) (p : Owner α × St α) (y : Abs α) (hn : y.strongs + y.weaks = n)
    (hk : k + n + 1 < TOP) (h : OInv e.toEnv k p y) :
    ∃ rs p', arun e p (dropAll y.strongs y.weaks) = some (rs, p') ∧ p'.1 = .plain .vec ∧ p'.2.allocs = p'.2.frees ∧
      p'.2.dropped = p.2.dropped ++ y.owned := by
  have base : ∀ (k : Nat) (p : Owner α × St α) (b : Bool) (l : List α), k + 1 < TOP → OInv e.toEnv k p (.plain b l) → ∃ rs p', arun e p (dropAll 0 0) = some (rs, p') ∧
      p'.1 = .plain .vec ∧ p'.2.allocs = p'.2.frees ∧ p'.2.dropped = p.2.dropped ++ l := by
    intro k p b l hk h
    obtain ⟨o, s⟩ := p
    cases o with
    | arc a => exact h.elim
    | plain v =>
      obtain ⟨hp, hb⟩ := h
      cases v with
      | vec =>
        obtain ⟨hv, hb⟩ := hp
        obtain ⟨s', q1, q2, q3, q4, _⟩ := dropVec_spec s l hv hb
        refine ⟨[.unit], (.plain .vec, s'), by simp [dropAll, arun, astep, bstep, q1], rfl, ?_, q4⟩
        unfold Bal at q3; rw [q2] at q3; exact q3
      | boxed b =>
        obtain ⟨hv, hb, hn⟩ := hp
        exact ⟨[.unit], (.plain .vec, _), by simp [dropAll, arun, astep, bstep, bdrop_spec s b l hv]; rfl, rfl, hb, rfl⟩
  induction n generalizing p y k with
  | zero =>
    cases y with
    | plain b l => exact base k p b l (by omega) h
    | shared l a w =>
      obtain ⟨o, s⟩ := p
      cases o with
      | plain v => exact h.elim
      | arc c =>
        obtain ⟨hi, rfl, rfl, _, _⟩ := h
        simp only [Abs.strongs, Abs.weaks] at hn
        exact absurd ⟨by omega, by omega⟩ hi.ne
  | succ n ih =>
    cases y with
    | plain b l => simp [Abs.strongs, Abs.weaks] at hn
    | shared l a w =>
      simp only [Abs.strongs, Abs.weaks] at hn ⊢
      cases a with
      | succ a =>
        obtain ⟨r, p1, x1, h1, g⟩ := astep_good he k (by omega) p _ h .dropArc trivial (by simp [Fits])
        have gs := g.spec
        simp only [ASpec] at gs
        obtain ⟨rfl, gs⟩ := gs
        rw [if_neg (by omega)] at gs
        have e1 : x1.strongs = a ∧ x1.weaks = w := by
          rw [gs]; unfold norm
          split
          · rename_i hz; simp at hz; simp [Abs.strongs, Abs.weaks, hz]
          · simp [Abs.strongs, Abs.weaks]
        obtain ⟨rs, p2, h2, h3, h4, h5⟩ := ih (k + 1) p1 x1 (by omega) (by omega) g.inv
        rw [e1.1, e1.2] at h2
        refine ⟨.unit :: rs, p2, by simp [dropAll, arun, h1, h2], h3, h4, ?_⟩
        rw [h5, gs, norm_owned]
        obtain ⟨o, s⟩ := p
        cases o with
        | plain v => exact h.elim
        | arc c =>
          obtain ⟨hi, hc, hw, _, _⟩ := h
          have hc : c.arcs = a + 1 := hc
          have h0 : ¬ c.arcs = 0 := by omega
          cases a with
          | succ a =>
            have := astep_dropArc e c _ s _ h0 (dropArc_more c s hi.live (by rw [hi.strong]; omega))
            rw [this] at h1; cases h1
            simp [owned_shared]
          | zero =>
            have q := dropArc_last c s l hi.live (by rw [hi.strong]; omega) hi.slice_spec
            by_cases hw1 : c.weak = 1
            · have := astep_dropArc e c _ s _ h0 (q.trans (dropWeak_last _ _ hi.live hw1))
              rw [this] at h1; cases h1
              simp [owned_shared]
            · have := astep_dropArc e c _ s _ h0 (q.trans (dropWeak_more _ _ hi.live hw1))
              rw [this] at h1; cases h1
              simp [owned_shared]
      | zero =>
        cases w with
        | zero => omega
        | succ w =>
          obtain ⟨r, p1, x1, h1, g⟩ := astep_good he k (by omega) p _ h .dropWeak trivial (by simp [Fits])
          have gs := g.spec
          simp only [ASpec] at gs
          obtain ⟨rfl, gs⟩ := gs
          rw [if_neg (by omega)] at gs
          have e1 : x1.strongs = 0 ∧ x1.weaks = w := by
            rw [gs]; unfold norm
            split
            · rename_i hz; simp at hz; simp [Abs.strongs, Abs.weaks, hz]
            · simp [Abs.strongs, Abs.weaks]
          obtain ⟨rs, p2, h2, h3, h4, h5⟩ := ih (k + 1) p1 x1 (by omega) (by omega) g.inv
          rw [e1.1, e1.2] at h2
          refine ⟨.unit :: rs, p2, by simp [dropAll, arun, h1, h2], h3, h4, ?_⟩
          rw [h5, gs, norm_owned]
          obtain ⟨o, s⟩ := p
          cases o with
          | plain v => exact h.elim
          | arc c =>
            obtain ⟨hi, hc, hw, _, _⟩ := h
            have hw : c.weaks = w + 1 := hw
            have h0 : ¬ c.weaks = 0 := by omega
            by_cases hw1 : c.weak = 1
            · have := astep_dropWeak e c _ s _ h0 (dropWeak_last _ _ hi.live hw1)
              rw [this] at h1; cases h1
              simp [owned_shared]
            · have := astep_dropWeak e c _ s _ h0 (dropWeak_more _ _ hi.live hw1)
              rw [this] at h1; cases h1
              simp [owned_shared]

/-- Any history of vector, boxed slice and shared slice operations that fits is free of undefined behaviour and reports what the
specification says: conversions keep the elements, the counts are the numbers of handles, upgrading works exactly while a strong
handle exists, a handle can be turned back into a vector exactly when it is alone.  Every element is owned, handed back or
dropped, once; and after the remaining handles are dropped every block has been released and every element is gone.
What is missing from C52: the conversions excluded by `Fits`, and those from `Arc`; see the `_refuted` theorems. -/
theorem C52_history_partial (e : AEnv) (he : Sane e.toEnv) (ops : List (AOp α)) (ha : ∀ op ∈ ops, AArgs e.toEnv op)
    (hl : 2 * ops.length + 1 < TOP) (hf : AllFits e (.plain .vec, St.new) ops) :
    ∃ rs p y I O, arun e (.plain .vec, (St.new : St α)) ops = some (rs, p) ∧
      ASpecRun e (.plain .vec, St.new) ops (.plain false []) rs y I O ∧ I.Perm (O ++ p.2.dropped ++ y.owned) ∧
      ∃ rs' p', arun e p (dropAll y.strongs y.weaks) = some (rs', p') ∧ p'.1 = .plain .vec ∧ p'.2.allocs = p'.2.frees ∧
        I.Perm (O ++ p'.2.dropped) := by
  obtain ⟨rs, p, y, I, O, h1, h2, h3, h4⟩ := arun_good he ops ha 0 (by omega) (.plain .vec, St.new) (.plain false []) ⟨⟨VInv.new _, rfl⟩, rfl⟩ hf
  have hn : y.strongs + y.weaks ≤ 0 + ops.length := by
    obtain ⟨o, s⟩ := p
    cases o <;> cases y <;> try exact h2.elim
    · simp [Abs.strongs, Abs.weaks]
    · obtain ⟨hi, rfl, rfl, _⟩ := h2
      exact hi.few
  have hI : I.Perm (O ++ p.2.dropped ++ y.owned) := by
    simp only [St.new, Abs.owned, List.nil_append, List.append_nil] at h4
    exact h4.symm.trans (List.perm_append_comm.append_right _)
  obtain ⟨rs', p', q1, q2, q3, q4⟩ := dropAll_good he _ _ p y rfl (by omega) h2
  refine ⟨rs, p, y, I, O, h1, h3, hI, rs', p', q1, q2, q3, ?_⟩
  rw [q4, ← List.append_assoc]; exact hI

/-- A string of handles: the slice outlives its first handle, cannot be taken back while a weak handle exists, and survives in a
forced upgrade. -/
example : arun ⟨u64Env, 0⟩ (.plain .vec, St.new) [.plain (.vec (.push 1)), .plain (.vec (.push 2)), .toArc, .clone, .downgrade, .dropArc, .strongCount,
    .weakCount, .toVec, .replace 0 5, .dropArc, .upgrade, .forceUpgrade, .slice, .dropWeak, .replace 1 7, .slice, .toVec, .plain (.vec .asSlice), .plain .drop] =
    some ([.unit, .unit, .unit, .unit, .unit, .unit, .count 1, .count 2, .moved none, .back 5, .unit, .moved none, .unit, .refs [1, 2], .unit,
      .moved (some 2), .refs [1, 7], .unit, .refs [1, 7], .unit], .plain .vec, ⟨.new, [1, 2, 1, 7], 1, 1, 1, 0, 0⟩) := by
  decide +kernel

/-- With an allocator that has a size, `ArcSlice::from(Vec::new())` writes it to the prefix of a dangling pointer. -/
theorem C52_empty_refuted (e : AEnv) (h : e.asz ≠ 0) (ho : e.ok 0 (bytes e.toEnv 0) = true) :
    arun e (.plain .vec, (St.new : St α)) [.toArc] = none := by
  simp [arun, astep, Vec.toArc, St.new, Vec.new, h, ho]

/-- The updates of the counters are the operations on the bits of a `usize` that the source asks the processor for. -/
theorem C52_counters (c : Nat) (h : c < 2 ^ 64) : orTop c = c ||| 2 ^ 63 ∧ clearTop c = c &&& (2 ^ 63 - 1) ∧
    clearTop (orTop c) = clearTop c ∧ orTop (clearTop c) = orTop c ∧ (c ≠ 2 ^ 64 - 1 → decr (incr c) = c) := by
  have hT : TOP = 2 ^ 63 := by decide
  have hor : orTop c = c ||| 2 ^ 63 := by
    unfold orTop
    split
    · rename_i hc
      rw [hT] at hc ⊢
      rw [Nat.or_comm, Nat.add_comm]
      have := Nat.two_pow_add_eq_or_of_lt hc 1
      simpa using this
    · rename_i hc
      rw [hT] at hc
      have hc' : c - 2 ^ 63 < 2 ^ 63 := by omega
      have e := Nat.two_pow_add_eq_or_of_lt hc' 1
      simp only [Nat.mul_one] at e
      have e2 : c = 2 ^ 63 ||| (c - 2 ^ 63) := by rw [← e]; omega
      conv => rhs; rw [e2]
      rw [Nat.or_assoc, Nat.or_comm (c - 2 ^ 63), ← Nat.or_assoc, Nat.or_self, ← e2]
  have hand : clearTop c = c &&& (2 ^ 63 - 1) := by
    rw [Nat.and_two_pow_sub_one_eq_mod]
    unfold clearTop
    split
    · rename_i hc; rw [hT] at hc; rw [Nat.mod_eq_of_lt hc]
    · rename_i hc; rw [hT] at hc ⊢; omega
  refine ⟨hor, hand, ?_, ?_, ?_⟩
  · unfold clearTop orTop; rw [hT]; split <;> (try split) <;> omega
  · unfold clearTop orTop; rw [hT]; split <;> (try split) <;> omega
  · intro hc
    unfold decr incr W
    omega
example : orTop 3 = 9223372036854775811 ∧ clearTop 9223372036854775811 = 3 ∧ clearTop TOP = 0 ∧ orTop TOP = TOP := by decide

/-- An `ArcSlice` made of a vector without capacity is not released once it is converted back. -/
theorem C52_empty_leak_refuted : ∃ p, arun ⟨u64Env, 0⟩ (.plain .vec, (St.new : St Nat)) [.toArc, .toVec, .plain .drop] =
    some ([.unit, .unit, .unit], p) ∧ p.2.allocs = 1 ∧ p.2.frees = 0 :=
  ⟨(.plain .vec, ⟨.new, [], 1, 1, 0, 0, 0⟩), by decide +kernel⟩

/-- `ArcSlice::from(arc)` keeps the handle and also drops the `Arc`: made of the only handle it destroys the element and releases
the block, so that reading the slice is undefined; otherwise the strong count is one less than the number of handles. -/
theorem C52_from_arc_refuted (e : Env) (k : Nat) (a : Shared α) (s : St α) (x : α) (hi : AInv e k a [x]) (h0 : a.arcs ≠ 0) (hk : k + 1 < TOP) :
    ∃ a' s', arcToSlice a s = some (a', s') ∧ a'.arcs = a.arcs ∧ a'.strong = a'.arcs - 1 ∧
      (a.arcs = 1 → s'.dropped = s.dropped ++ [x] ∧ (a.weaks = 0 → a'.step s' .slice = none)) := by
  have hal := hi.alive
  have hT : TOP + TOP = W := by simp [TOP, W]
  have hd : decr a.strong = a.arcs - 1 := by
    have := hi.few; have := hi.strong
    rw [decr_eq (by omega) (by omega), hi.strong]
  have hb : ({ a with b := { a.b with pcap := 1 } } : Shared α).buf.cells = a.buf.cells := rfl
  have hs : slice ({ a with b := { a.b with pcap := 1 } } : Shared α).buf 0 a.len = some [x] := by
    obtain ⟨rest, hd⟩ := hi.data
    have hl : a.len = 1 := hi.len
    have := Verif.Vec.slice_spec ({ a with b := { a.b with pcap := 1 } } : Shared α).buf [x] rest hd a.len 0 (by simp [hl])
    rw [this, hl]; rfl
  have hgo : arcToSlice a s = Shared.dropArc { a with b := { a.b with pcap := 1 } } s := by
    unfold arcToSlice; rw [hal]; rfl
  rw [hgo]
  by_cases h1 : a.arcs = 1
  · have q := dropArc_last { a with b := { a.b with pcap := 1 } } s [x] hi.live (by show a.strong = 1; rw [hi.strong, h1]) hs
    by_cases hw : a.weaks = 0
    · refine ⟨_, _, q.trans (dropWeak_last _ _ hi.live (by show a.weak = 1; rw [hi.weak, if_neg h0, hw])), rfl, hd, fun _ => ⟨rfl, fun _ => ?_⟩⟩
      simp only [Shared.step, if_neg h0, Shared.live]; rfl
    · refine ⟨_, _, q.trans (dropWeak_more _ _ hi.live (by show a.weak ≠ 1; rw [hi.weak, if_neg h0]; omega)), rfl, hd, fun _ => ⟨rfl, fun h => absurd h hw⟩⟩
  · exact ⟨_, _, dropArc_more { a with b := { a.b with pcap := 1 } } s hi.live (by show a.strong ≠ 1; rw [hi.strong]; exact h1), rfl, hd, fun h => absurd h h1⟩

/-- `ArcSlice::from(Arc::new(5))`. -/
example : AInv u64Env 1 (⟨⟨[some 5], 1⟩, 1, 1, 1, false, 1, 0⟩ : Shared Nat) [5] :=
  ⟨rfl, rfl, rfl, by decide, by decide, rfl, ⟨[], rfl⟩, rfl, by decide⟩

end Verif.Props.Shared
