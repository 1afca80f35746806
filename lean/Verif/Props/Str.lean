import Verif.Vec.Str
import Verif.Props.Shared

/-! Property C21. -/
namespace Verif.Props.Str
open Verif.Vec Verif.Props.Vec Verif.Props.Boxed Verif.Props.Shared

/-- The bytes encode a sequence of Unicode scalar values. -/
def Utf8 (l : List UInt8) : Prop := ∃ cs : List Char, l = cs.flatMap String.utf8EncodeChar

theorem utf8_nil : Utf8 [] := ⟨[], rfl⟩
theorem utf8_append {l m : List UInt8} : Utf8 l → Utf8 m → Utf8 (l ++ m)
  | ⟨c, h⟩, ⟨d, h'⟩ => ⟨c ++ d, by rw [h, h', List.flatMap_append]⟩

theorem fromUtf8_iff (l : List UInt8) : fromUtf8 l = true ↔ Utf8 l := by
  unfold fromUtf8 Utf8
  rw [ByteArray.validateUTF8_eq_true_iff]
  constructor
  · rintro ⟨m, h⟩
    exact ⟨m, by simpa [List.utf8Encode] using congrArg (·.data.toList) h⟩
  · rintro ⟨m, rfl⟩; exact ⟨m, rfl⟩

/-- What an operation may report and leave on a variable described by `x`; `b` says whether the variable holds text.
Operations that do not type-check are ignored. -/
def TSpec (op : TOp) (b full refused : Bool) (x : Abs UInt8) (r : Res UInt8) (b' : Bool) (y : Abs UInt8) : Prop :=
  match op with
  | .bytes op => b' = b ∧ if b then r = .unit ∧ y = x else ASpec op full refused x r y
  | .text op => b' = b ∧ if b && onText op then ASpec op full refused x r y else r = .unit ∧ y = x
  | .fromStr t =>
    match x with
    | .plain _ _ => b' = true ∧ if refused then r = .panic ∧ y = .plain false [] else r = .unit ∧ y = .plain false t
    | .shared _ _ _ => b' = b ∧ r = .unit ∧ y = x
  | .intoBytes =>
    r = .unit ∧ y = x ∧ match x with
      | .plain false _ => b' = false
      | _ => b' = b
  | .tryFrom =>
    match b, x with
    | false, .plain false l => (Utf8 l ∧ r = .unit ∧ b' = true ∧ y = x) ∨ (¬ Utf8 l ∧ r = .moved none ∧ b' = false ∧ y = .plain false [])
    | _, _ => r = .unit ∧ b' = b ∧ y = x
  | .concat t =>
    b' = b ∧ match b, x with
    | true, .plain false l => if refused then r = .allocErr ∧ y = x else r = .unit ∧ y = .plain false (l ++ t)
    | _, _ => r = .unit ∧ y = x
  | .addAssign t =>
    b' = b ∧ match b, x with
    | true, .plain false l => if refused then r = .panic ∧ y = x else r = .unit ∧ y = .plain false (l ++ t)
    | _, _ => r = .unit ∧ y = x
  | .edit g =>
    b' = b ∧ r = .unit ∧ match b, x with
    | true, .plain bx l => y = .plain bx (g l)
    | true, .shared l a w => y = if a = 1 ∧ w = 0 then .shared (g l) a w else x
    | _, _ => y = x

/-- The bytes behind the variable. -/
def Abs.contents : Abs UInt8 → List UInt8
  | .plain _ l => l
  | .shared l _ _ => l

/-- What the type system and `core` guarantee about the arguments: a `&str` is UTF-8 and an edit of a `&mut str` keeps it so, and keeps its
length.  Requests stay below half of the address space. -/
def TArgs (e : Env) : TOp → Prop
  | .bytes op | .text op => AArgs e op
  | .fromStr t | .concat t | .addAssign t => Utf8 t ∧ e.esz * t.length < 9223372036854775808
  | .edit g => ∀ l, Utf8 l → Utf8 (g l) ∧ (g l).length = l.length
  | _ => True

/-- Restrictions on conversions, as in C19 and C52. -/
def TFits (e : AEnv) (b : Bool) (p : Owner UInt8 × St UInt8) : TOp → Prop
  | .bytes op => b = false → Fits e p op
  | .text op => b = true → Fits e p op
  | _ => True

structure TGood (e : Env) (k : Nat) (b : Bool) (p : Owner UInt8 × St UInt8) (x : Abs UInt8) (op : TOp) (r : Res UInt8) (b' : Bool)
    (p' : Owner UInt8 × St UInt8) (y : Abs UInt8) : Prop where
  inv : OInv e (k + 1) p' y
  text : b' = true → Utf8 (Abs.contents y)
  spec : TSpec op b (ownFull p.1) (decide (p'.2.refused ≠ p.2.refused)) x r b' y

theorem omono {α : Type} {e : Env} {k : Nat} {p : Owner α × St α} {x : Abs α} (h : OInv e k p x) : OInv e (k + 1) p x := by
  obtain ⟨o, s⟩ := p
  cases o <;> cases x
  · exact h
  · exact h.elim
  · exact h.elim
  · obtain ⟨hi, h1, h2, h3, h4⟩ := h
    exact ⟨⟨hi.live, hi.strong, hi.weak, hi.ne, by have := hi.few; omega, hi.len, hi.data, hi.size, hi.bound⟩, h1, h2, h3, h4⟩

/-- Text operations keep the bytes or remove all of them. -/
theorem onText_keeps {op : AOp UInt8} {full refused : Bool} {x y : Abs UInt8} {r : Res UInt8} (ho : onText op = true) (h : ASpec op full refused x r y) :
    Abs.contents y = Abs.contents x ∨ Abs.contents y = [] := by
  have hn : ∀ (l : List UInt8) (a w : Nat), Abs.contents (norm l a w) = l ∨ Abs.contents (norm l a w) = [] := by
    intro l a w; unfold norm; split <;> simp [Abs.contents]
  cases x with
  | plain bx l =>
    cases op with
    | plain op =>
      obtain ⟨l', h1, rfl⟩ := h
      cases op <;> simp [onText] at ho <;> simp only [BSpec] at h1 <;> simp [Abs.contents, h1.2]
    | toArc =>
      simp only [ASpec] at h
      split at h
      · left; rw [h.2]
      · split at h
        · right; rw [h.2.2]; rfl
        · left; rw [h.2]; rfl
    | replace i z => simp [onText] at ho
    | _ => left; simp only [ASpec] at h; rw [h.2]
  | shared l a w =>
    cases op with
    | replace i z => simp [onText] at ho
    | toVec =>
      simp only [ASpec] at h
      split at h
      · left; rw [h.2]
      · split at h <;> left <;> rw [h.2] <;> rfl
    | upgrade =>
      simp only [ASpec] at h
      split at h
      · left; rw [h.2]
      · split at h <;> left <;> rw [h.2] <;> rfl
    | dropArc =>
      simp only [ASpec] at h
      rw [h.2]; split
      · left; rfl
      · exact hn _ _ _
    | dropWeak =>
      simp only [ASpec] at h
      rw [h.2]; split
      · left; rfl
      · exact hn _ _ _
    | clone => simp only [ASpec] at h; rw [h.2]; left; split <;> rfl
    | downgrade => simp only [ASpec] at h; rw [h.2]; left; split <;> rfl
    | cloneWeak => simp only [ASpec] at h; rw [h.2]; left; split <;> rfl
    | forceUpgrade => simp only [ASpec] at h; rw [h.2]; left; split <;> rfl
    | _ => left; simp only [ASpec] at h; rw [h.2]

theorem copyExtend_good {e : Env} (he : Sane e) (s : St UInt8) (l : List UInt8) (h : VInv e s.v l) (hb : Bal s) (t : List UInt8)
    (hn : e.esz * t.length < 9223372036854775808) :
    ∃ r s' l', tryCopyExtend e s t = some (r, s') ∧ VInv e s'.v l' ∧ Bal s' ∧
      (if s'.refused ≠ s.refused then r = .allocErr ∧ l' = l else r = .unit ∧ l' = l ++ t) := by
  obtain ⟨r, s', l', h1, g⟩ := copyExtend_step he s l h hb t hn
  refine ⟨r, s', l', h1, g.inv, g.bal, ?_⟩
  have := g.spec
  simp only [Spec] at this
  by_cases hr : s'.refused = s.refused <;> simp [hr] at this ⊢ <;> exact this

theorem patch_spec (l new : List UInt8) (rest : List (Option UInt8)) (h : new.length = l.length) : patch (l.map some ++ rest) new = new.map some ++ rest := by
  unfold patch
  rw [List.drop_append_of_le_length (by simp [h]), List.drop_of_length_le (by simp [h])]; rfl

def edited (g : List UInt8 → List UInt8) : Abs UInt8 → Abs UInt8
  | .plain bx l => .plain bx (g l)
  | .shared l a w => if a = 1 ∧ w = 0 then .shared (g l) a w else .shared l a w

theorem edit_good {e : Env} {k : Nat} (p : Owner UInt8 × St UInt8) (x : Abs UInt8) (h : OInv e k p x) (g : List UInt8 → List UInt8)
    (hg : ∀ l, Utf8 l → Utf8 (g l) ∧ (g l).length = l.length) (hu : Utf8 (Abs.contents x)) :
    ∃ p' y, editOwner p g = some p' ∧ OInv e k p' y ∧ p'.2.refused = p.2.refused ∧ Utf8 (Abs.contents y) ∧
      y = edited g x := by
  obtain ⟨o, s⟩ := p
  cases o with
  | plain v =>
    cases x with
    | shared l a w => exact h.elim
    | plain bx l =>
      obtain ⟨hg1, hg2⟩ := hg l hu
      obtain ⟨hp, hbx⟩ := h
      cases v with
      | vec =>
        obtain ⟨hv, hb⟩ := hp
        dsimp only at hv hb
        obtain ⟨rest, hd⟩ := hv.data
        have hs : slice s.v 0 s.v.len = some l := by
          have := hv.len
          rw [this, Verif.Vec.slice_spec s.v l rest hd l.length 0 (by omega)]; simp
        have hpt : patch s.v.cells (g l) = (g l).map some ++ rest := by rw [hd]; exact patch_spec _ _ _ hg2
        obtain ⟨f, c⟩ := withCells_spec s.v (patch s.v.cells (g l)) (by rw [hpt, hd]; simp [hg2])
        refine ⟨(.plain .vec, { s with v := s.v.withCells (patch s.v.cells (g l)) }), .plain bx (g l), by simp [editOwner, hs], ⟨⟨?_, ?_⟩, hbx⟩, rfl, hg1, rfl⟩
        · exact hv.of_frame f (by rw [f.len, hv.len, hg2]) ⟨rest, by rw [c, hpt]⟩
        · show s.allocs = s.frees + live (s.v.withCells (patch s.v.cells (g l)))
          rw [live_frame f]; exact hb
      | boxed b =>
        obtain ⟨hv, hb, hn⟩ := hp
        dsimp only at hv hb
        obtain ⟨kk, k1, k2, k3⟩ := hv.blk
        obtain ⟨rest, hd⟩ := k2.data
        have hc : kk.cells = l.map some ++ rest := by simpa [Vec.cells, k1] using hd
        have hpt : patch kk.cells (g l) = (g l).map some ++ rest := by rw [hc]; exact patch_spec _ _ _ hg2
        refine ⟨(.plain (.boxed { b with block := some { kk with cells := patch kk.cells (g l) } }), s), .plain bx (g l), ?_, ⟨⟨?_, hb, hn⟩, hbx⟩, rfl, hg1, rfl⟩
        · simp [editOwner, hv.slice_spec, k1]
        · refine ⟨?_, ?_, _, rfl, ⟨?_, ⟨rest, by simp [Vec.cells, hpt]⟩, ?_, ?_, k2.bound⟩, k3⟩
          · show b.len = _; rw [hv.len, hg2]
          · intro h0; apply hv.ne; rw [← List.length_eq_zero_iff, ← hg2, h0]; rfl
          · show b.len = _; rw [hv.len, hg2]
          · have := k2.size; simp only [Vec.cells, k1] at this
            show (patch kk.cells (g l)).length = kk.pcap
            rw [hpt, ← this, hc]; simp [hg2]
          · have := k2.blk; rw [k1] at this; exact this
  | arc a =>
    cases x with
    | plain bx l => exact h.elim
    | shared l n w =>
      obtain ⟨hg1, hg2⟩ := hg l hu
      obtain ⟨hi, rfl, rfl, hbal, hnew⟩ := h
      by_cases h0 : a.arcs = 0
      · refine ⟨(.arc a, s), .shared l a.arcs a.weaks, by simp [editOwner, h0], ⟨hi, rfl, rfl, hbal, hnew⟩, rfl, hu, ?_⟩
        simp [edited, h0]
      · have hq := unique_iff hi h0
        by_cases hq2 : a.arcs = 1 ∧ a.weaks = 0
        · obtain ⟨rest, hd⟩ := hi.data
          have hpt : patch a.b.cells (g l) = (g l).map some ++ rest := by rw [hd]; exact patch_spec _ _ _ hg2
          refine ⟨(.arc { a with b := { a.b with cells := patch a.b.cells (g l) } }, s), .shared (g l) a.arcs a.weaks, ?_, ?_, rfl, hg1, ?_⟩
          · simp [editOwner, hi.alive, hq, hq2, hi.slice_spec]
          · refine ⟨⟨hi.live, hi.strong, hi.weak, hi.ne, hi.few, ?_, ⟨rest, hpt⟩, ?_, hi.bound⟩, rfl, rfl, hbal, hnew⟩
            · show a.len = _; rw [hi.len, hg2]
            · show (patch a.b.cells (g l)).length = a.b.pcap
              rw [hpt, ← hi.size, hd]; simp [hg2]
          · simp [edited, hq2]
        · refine ⟨(.arc a, s), .shared l a.arcs a.weaks, ?_, ⟨hi, rfl, rfl, hbal, hnew⟩, rfl, hu, ?_⟩
          · simp [editOwner, h0, hi.alive, hq, hq2]
          · simp only [edited, if_neg hq2]

theorem tstep_good {e : AEnv} (he : Sane e.toEnv) (k : Nat) (hk : k + 1 < TOP) (b : Bool) (p : Owner UInt8 × St UInt8) (x : Abs UInt8)
    (h : OInv e.toEnv k p x) (hu : b = true → Utf8 (Abs.contents x)) (op : TOp) (ha : TArgs e.toEnv op) (hf : TFits e b p op) :
    ∃ r b' p' y, tstep e b p op = some (r, b', p') ∧ TGood e.toEnv k b p x op r b' p' y := by
  cases op with
  | bytes op =>
    cases b with
    | true => exact ⟨.unit, true, p, x, rfl, (omono h), hu, rfl, rfl, rfl⟩
    | false =>
      obtain ⟨r, p', y, h1, g⟩ := astep_good he k hk p x h op ha (hf rfl)
      exact ⟨r, false, p', y, by simp [tstep, h1], g.inv, fun hb => (nomatch hb), rfl, g.spec⟩
  | text op =>
    by_cases hb : (b && onText op) = true
    · obtain ⟨b1, b2⟩ := Bool.and_eq_true_iff.1 hb
      subst b1
      obtain ⟨r, p', y, h1, g⟩ := astep_good he k hk p x h op ha (hf rfl)
      refine ⟨r, true, p', y, by simp [tstep, h1, b2], g.inv, fun _ => ?_, rfl, ?_⟩
      · rcases onText_keeps b2 g.spec with q | q
        · rw [q]; exact hu rfl
        · rw [q]; exact utf8_nil
      · rw [if_pos hb]; exact g.spec
    · refine ⟨.unit, b, p, x, by simp [tstep, hb], (omono h), hu, rfl, ?_⟩
      rw [if_neg hb]; exact ⟨rfl, rfl⟩
  | fromStr t =>
    obtain ⟨o, s⟩ := p
    cases o with
    | arc a =>
      cases x with
      | plain bx l => exact h.elim
      | shared l n w => exact ⟨.unit, b, (.arc a, s), .shared l n w, rfl, (omono h), hu, rfl, rfl, rfl⟩
    | plain v =>
      cases x with
      | shared l n w => exact h.elim
      | plain bx l =>
        obtain ⟨hp, hbx⟩ := h
        obtain ⟨r1, p1, l1, h1, g1⟩ := bstep_good he (v, s) l hp .drop trivial (fun a => (nomatch a))
        obtain ⟨v1, s1⟩ := p1
        have hsp := g1.spec
        obtain ⟨rfl, rfl⟩ := hsp
        have hv1 : v1 = .vec := by
          have := bstep_boxed _ _ _ _ _ h1
          cases v1 with
          | vec => rfl
          | boxed q => exact absurd this (by simp [isBoxed, nextBoxed])
        subst hv1
        have hre : s1.refused = s.refused := by
          cases v with
          | vec =>
            obtain ⟨s', q1, _, _, _, q5, _⟩ := dropVec_spec s l hp.1 hp.2
            simp only [bstep, q1] at h1; cases h1; exact q5
          | boxed q =>
            simp only [bstep, bdrop_spec s q l hp.1] at h1; cases h1; rfl
        obtain ⟨r, s2, l2, h2, i2, b2, c2⟩ := copyExtend_good he s1 [] g1.inv.1 g1.inv.2 t ha.2
        by_cases hr : s2.refused ≠ s1.refused
        · rw [if_pos hr] at c2
          obtain ⟨rfl, rfl⟩ := c2
          refine ⟨.panic, true, (.plain .vec, s2), .plain false [], by simp [tstep, h1, copyExtend, h2], ⟨⟨i2, b2⟩, rfl⟩, fun _ => utf8_nil, rfl, ?_⟩
          rw [if_pos (by simp; rw [← hre]; exact hr)]; exact ⟨rfl, rfl⟩
        · rw [if_neg hr] at c2
          obtain ⟨rfl, rfl⟩ := c2
          refine ⟨.unit, true, (.plain .vec, s2), .plain false _, by simp [tstep, h1, copyExtend, h2], ⟨⟨i2, b2⟩, rfl⟩, fun _ => ha.1, rfl, ?_⟩
          rw [if_neg (by simp; rw [← hre]; exact Classical.not_not.1 hr)]; exact ⟨rfl, rfl⟩
  | intoBytes =>
    obtain ⟨o, s⟩ := p
    cases o with
    | arc a =>
      cases x with
      | plain bx l => exact h.elim
      | shared l n w => exact ⟨.unit, b, (.arc a, s), .shared l n w, rfl, (omono h), hu, rfl, rfl, rfl⟩
    | plain v =>
      cases x with
      | shared l n w => exact h.elim
      | plain bx l =>
        cases v with
        | vec =>
          have : bx = false := h.2.symm
          subst this
          exact ⟨.unit, false, (.plain .vec, s), .plain false l, rfl, (omono h), fun hb => (nomatch hb), rfl, rfl, rfl⟩
        | boxed q =>
          have : bx = true := h.2.symm
          subst this
          exact ⟨.unit, b, (.plain (.boxed q), s), .plain true l, rfl, (omono h), hu, rfl, rfl, rfl⟩
  | tryFrom =>
    cases b with
    | true => exact ⟨.unit, true, p, x, rfl, (omono h), hu, rfl, rfl, rfl⟩
    | false =>
      obtain ⟨o, s⟩ := p
      cases o with
      | arc a =>
        cases x with
        | plain bx l => exact h.elim
        | shared l n w => exact ⟨.unit, false, (.arc a, s), .shared l n w, rfl, (omono h), hu, rfl, rfl, rfl⟩
      | plain v =>
        cases x with
        | shared l n w => exact h.elim
        | plain bx l =>
          cases v with
          | boxed q =>
            have : bx = true := h.2.symm
            subst this
            exact ⟨.unit, false, (.plain (.boxed q), s), .plain true l, rfl, (omono h), hu, rfl, rfl, rfl⟩
          | vec =>
            have : bx = false := h.2.symm
            subst this
            obtain ⟨⟨hv, hb⟩, _⟩ := h
            dsimp only at hv hb
            obtain ⟨rest, hd⟩ := hv.data
            have hs : slice s.v 0 s.v.len = some l := by
              have := hv.len
              rw [this, Verif.Vec.slice_spec s.v l rest hd l.length 0 (by omega)]; simp
            by_cases hf8 : fromUtf8 l = true
            · refine ⟨.unit, true, (.plain .vec, s), .plain false l, by simp [tstep, hs, hf8], ⟨⟨hv, hb⟩, rfl⟩, fun _ => (fromUtf8_iff l).1 hf8, ?_⟩
              exact .inl ⟨(fromUtf8_iff l).1 hf8, rfl, rfl, rfl⟩
            · obtain ⟨s', q1, q2, q3, _, _⟩ := dropVec_spec s l hv hb
              refine ⟨.moved none, false, (.plain .vec, s'), .plain false [], by simp [tstep, hs, hf8, q1], ⟨⟨?_, q3⟩, rfl⟩, fun hb => (nomatch hb), ?_⟩
              · show VInv _ s'.v []; rw [q2]; exact VInv.new _
              · exact .inr ⟨fun hq => hf8 ((fromUtf8_iff l).2 hq), rfl, rfl, rfl⟩
  | concat t =>
    cases b with
    | false => exact ⟨.unit, false, p, x, rfl, (omono h), hu, rfl, rfl, rfl⟩
    | true =>
      obtain ⟨o, s⟩ := p
      cases o with
      | arc a =>
        cases x with
        | plain bx l => exact h.elim
        | shared l n w => exact ⟨.unit, true, (.arc a, s), .shared l n w, rfl, (omono h), hu, rfl, rfl, rfl⟩
      | plain v =>
        cases x with
        | shared l n w => exact h.elim
        | plain bx l =>
          cases v with
          | boxed q =>
            have : bx = true := h.2.symm
            subst this
            exact ⟨.unit, true, (.plain (.boxed q), s), .plain true l, rfl, (omono h), hu, rfl, rfl, rfl⟩
          | vec =>
            have : bx = false := h.2.symm
            subst this
            obtain ⟨⟨hv, hb⟩, _⟩ := h
            obtain ⟨r, s2, l2, h2, i2, b2, c2⟩ := copyExtend_good he s l hv hb t ha.2
            by_cases hr : s2.refused ≠ s.refused
            · rw [if_pos hr] at c2
              obtain ⟨rfl, rfl⟩ := c2
              refine ⟨.allocErr, true, (.plain .vec, s2), .plain false l2, by simp [tstep, h2], ⟨⟨i2, b2⟩, rfl⟩, hu, rfl, ?_⟩
              dsimp only
              rw [if_pos (by simpa using hr)]; exact ⟨rfl, rfl⟩
            · rw [if_neg hr] at c2
              obtain ⟨rfl, rfl⟩ := c2
              refine ⟨.unit, true, (.plain .vec, s2), .plain false (l ++ t), by simp [tstep, h2], ⟨⟨i2, b2⟩, rfl⟩, fun _ => utf8_append (hu rfl) ha.1, rfl, ?_⟩
              dsimp only
              rw [if_neg (by simpa using hr)]; exact ⟨rfl, rfl⟩
  | addAssign t =>
    cases b with
    | false => exact ⟨.unit, false, p, x, rfl, (omono h), hu, rfl, rfl, rfl⟩
    | true =>
      obtain ⟨o, s⟩ := p
      cases o with
      | arc a =>
        cases x with
        | plain bx l => exact h.elim
        | shared l n w => exact ⟨.unit, true, (.arc a, s), .shared l n w, rfl, (omono h), hu, rfl, rfl, rfl⟩
      | plain v =>
        cases x with
        | shared l n w => exact h.elim
        | plain bx l =>
          cases v with
          | boxed q =>
            have : bx = true := h.2.symm
            subst this
            exact ⟨.unit, true, (.plain (.boxed q), s), .plain true l, rfl, (omono h), hu, rfl, rfl, rfl⟩
          | vec =>
            have : bx = false := h.2.symm
            subst this
            obtain ⟨⟨hv, hb⟩, _⟩ := h
            obtain ⟨r, s2, l2, h2, i2, b2, c2⟩ := copyExtend_good he s l hv hb t ha.2
            by_cases hr : s2.refused ≠ s.refused
            · rw [if_pos hr] at c2
              obtain ⟨rfl, rfl⟩ := c2
              refine ⟨.panic, true, (.plain .vec, s2), .plain false l2, by simp [tstep, copyExtend, h2], ⟨⟨i2, b2⟩, rfl⟩, hu, rfl, ?_⟩
              dsimp only
              rw [if_pos (by simpa using hr)]; exact ⟨rfl, rfl⟩
            · rw [if_neg hr] at c2
              obtain ⟨rfl, rfl⟩ := c2
              refine ⟨.unit, true, (.plain .vec, s2), .plain false (l ++ t), by simp [tstep, copyExtend, h2], ⟨⟨i2, b2⟩, rfl⟩, fun _ => utf8_append (hu rfl) ha.1, rfl, ?_⟩
              dsimp only
              rw [if_neg (by simpa using hr)]; exact ⟨rfl, rfl⟩
  | edit g =>
    cases b with
    | false => exact ⟨.unit, false, p, x, rfl, (omono h), hu, rfl, rfl, rfl⟩
    | true =>
      obtain ⟨p', y, h1, h2, h3, h4, h5⟩ := edit_good p x h g ha (hu rfl)
      refine ⟨.unit, true, p', y, by simp [tstep, h1], (omono h2), fun _ => h4, rfl, rfl, ?_⟩
      cases x <;> exact h5

def AllTFits (e : AEnv) (b : Bool) (p : Owner UInt8 × St UInt8) : List TOp → Prop
  | [] => True
  | op :: ops => TFits e b p op ∧ ∀ r b' p', tstep e b p op = some (r, b', p') → AllTFits e b' p' ops

/-- The reports of a history are those of the specification, and whenever the variable holds text, this text is UTF-8. -/
def TSpecRun (e : AEnv) (b : Bool) (p : Owner UInt8 × St UInt8) : List TOp → Abs UInt8 → List (Res UInt8) → Bool → Abs UInt8 → Prop
  | [], x, rs, b', y => rs = [] ∧ b' = b ∧ y = x ∧ (b = true → Utf8 (Abs.contents x))
  | op :: ops, x, rs, b', y => (b = true → Utf8 (Abs.contents x)) ∧ ∃ r rs' c p' m, rs = r :: rs' ∧ tstep e b p op = some (r, c, p') ∧
    TSpec op b (ownFull p.1) (decide (p'.2.refused ≠ p.2.refused)) x r c m ∧ TSpecRun e c p' ops m rs' b' y

/-- Any history mixing operations on bytes and on text is free of undefined behaviour and reports what the specification says:
the text is UTF-8 at every point, `String::try_from` accepts exactly UTF-8, and concatenation concatenates.  What is missing from
C21: the conversions of empty strings excluded by `TFits` (see C19 and C52). -/
theorem C21_history_partial (e : AEnv) (he : Sane e.toEnv) (ops : List TOp) (ha : ∀ op ∈ ops, TArgs e.toEnv op) (hl : ops.length < TOP)
    (hf : AllTFits e true (.plain .vec, St.new) ops) :
    ∃ rs b p y, trun e true (.plain .vec, St.new) ops = some (rs, b, p) ∧
      TSpecRun e true (.plain .vec, St.new) ops (.plain false []) rs b y ∧ (b = true → Utf8 (Abs.contents y)) := by
  have key : ∀ (ops : List TOp) (b : Bool) (p : Owner UInt8 × St UInt8) (x : Abs UInt8) (k : Nat), (∀ op ∈ ops, TArgs e.toEnv op) → k + ops.length < TOP →
      AllTFits e b p ops → OInv e.toEnv k p x → (b = true → Utf8 (Abs.contents x)) →
      ∃ rs b' p' y, trun e b p ops = some (rs, b', p') ∧ TSpecRun e b p ops x rs b' y ∧ (b' = true → Utf8 (Abs.contents y)) := by
    intro ops
    induction ops with
    | nil => intro b p x k _ _ _ h hu; exact ⟨[], b, p, x, rfl, ⟨rfl, rfl, rfl, hu⟩, hu⟩
    | cons op ops ih =>
      intro b p x k ha hk hf h hu
      simp only [List.length_cons] at hk
      obtain ⟨r, b1, p1, x1, h1, g⟩ := tstep_good he k (by omega) b p x h hu op (ha op (by simp)) hf.1
      obtain ⟨rs, b2, p2, y, h2, c2, u2⟩ := ih b1 p1 x1 (k + 1) (fun o ho => ha o (by simp [ho])) (by omega) (hf.2 r b1 p1 h1) g.inv g.text
      exact ⟨r :: rs, b2, p2, y, by simp [trun, h1, h2], ⟨hu, r, rs, b1, p1, x1, rfl, h1, g.spec, c2⟩, u2⟩
  exact key ops true _ _ 0 ha (by omega) hf ⟨⟨VInv.new _, rfl⟩, rfl⟩ (fun _ => utf8_nil)

/-- "é" is accepted, its first byte alone is not; a string travels through `ArcStr` and back. -/
example : trun ⟨⟨1, fun _ _ => true⟩, 0⟩ true (.plain .vec, St.new) [.fromStr [0xC3, 0xA9], .concat [0x21], .text .toArc, .text .clone, .text .slice, .text .toVec,
    .text .dropArc, .text .toVec, .intoBytes, .bytes (.plain (.vec .pop)), .bytes (.plain (.vec .pop)), .tryFrom, .text (.plain .asSlice)] =
    some ([.unit, .unit, .unit, .unit, .refs [0xC3, 0xA9, 0x21], .moved none, .unit, .unit, .unit, .moved (some 0x21), .moved (some 0xA9), .moved none, .unit],
      false, .plain .vec, ⟨.new, [0xC3], 2, 1, 1, 0, 2⟩) := by
  decide +kernel
example : Utf8 [0xC3, 0xA9] := ⟨['é'], by decide +kernel⟩
example : ¬ Utf8 [0xC3] := fun h => absurd ((fromUtf8_iff _).2 h) (by decide +kernel)

/-- `String::try_from(bytes)` alone. -/
theorem C21_try_from (e : AEnv) (s : St UInt8) (l : List UInt8) (h : VInv e.toEnv s.v l) (hb : Bal s) :
    ∃ r b p, tstep e false (.plain .vec, s) .tryFrom = some (r, b, p) ∧ (b = true ↔ Utf8 l) ∧
      (b = true → p = (.plain .vec, s)) ∧ (b = false → p.2.dropped = s.dropped ++ l ∧ p.2.v = .new ∧ p.2.allocs = p.2.frees) := by
  obtain ⟨rest, hd⟩ := h.data
  have hs : slice s.v 0 s.v.len = some l := by
    have := h.len
    rw [this, Verif.Vec.slice_spec s.v l rest hd l.length 0 (by omega)]; simp
  by_cases hf8 : fromUtf8 l = true
  · exact ⟨.unit, true, (.plain .vec, s), by simp [tstep, hs, hf8], by simp [(fromUtf8_iff l).1 hf8], fun _ => rfl, fun h => (nomatch h)⟩
  · obtain ⟨s', q1, q2, q3, q4, _⟩ := dropVec_spec s l h hb
    refine ⟨.moved none, false, (.plain .vec, s'), by simp [tstep, hs, hf8, q1], ?_, fun h => (nomatch h), fun _ => ⟨q4, q2, ?_⟩⟩
    · simp only [Bool.false_eq_true, false_iff]
      exact fun hq => hf8 ((fromUtf8_iff l).2 hq)
    · unfold Bal at q3; rw [q2] at q3; exact q3

example : VInv ⟨1, fun _ _ => true⟩ (⟨some ⟨[some 0xC3, none], 0⟩, 1, 2⟩ : Vec UInt8) [0xC3] :=
  ⟨rfl, ⟨[none], rfl⟩, rfl, rfl, by decide⟩

end Verif.Props.Str
