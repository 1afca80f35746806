import Verif.Serde.Model

/-! C70: what is serialised can be deserialised. -/
namespace Verif.Props.Serde
open Verif.Serde

/-- The elements of a sequence. -/
def elems : Vals → List Val
  | .nil => []
  | .cons v l => v :: elems l

/-- The format can lend every text and every slice of bytes that the value holds. -/
def Lends (f : Format) : Ty → Val → Prop
  | .strRef, .text s | .string, .text s | .boxedStr, .text s | .arcStr, .text s => f.mode s = .borrowed
  | .vec t, .list l | .boxedSlice t, .list l | .arcSlice t, .list l => ∀ v ∈ elems l, Lends f t v
  | .option t, .some v => Lends f t v
  | .result t _, .ok v => Lends f t v
  | .result _ e, .err v => Lends f e v
  | .bytesRef, _ => f.bytes = true
  | _, _ => True

theorem haveTy_iff (t : Ty) (l : Vals) : HaveTy t l ↔ ∀ v ∈ elems l, HasTy t v := by
  match l with
  | .nil => simp [HaveTy, elems]
  | .cons v l => simp [HaveTy, elems, haveTy_iff t l]

theorem des_iff {f : Format} {t : Ty} (P : Val → Prop) (H : ∀ v, HasTy t v → (de f t (ser v) = some v ↔ P v)) :
    (l : Vals) → HaveTy t l → (des f t (sers l) = some l ↔ ∀ v ∈ elems l, P v)
  | .nil, _ => by simp [sers, des, elems]
  | .cons v l, h => by
    simp only [HaveTy] at h
    have h1 := H v h.1
    have h2 := des_iff P H l h.2
    simp only [sers, des, elems, List.mem_cons, forall_eq_or_imp]
    rw [← h1, ← h2]
    constructor
    · intro e
      split at e
      · rename_i a b
        cases e
        exact ⟨a, b⟩
      · cases e
    · rintro ⟨a, b⟩
      rw [a, b]

theorem deStr_iff (f : Format) (s : List Char) : deStr f (.str s) = some (.text s) ↔ f.mode s = .borrowed := by
  cases h : f.mode s <;> simp [deStr, visitStr, h]

theorem map_iff {α β : Type} (g : α → β) (hg : ∀ a b, g a = g b → a = b) (o : Option α) (a : α) : o.map g = some (g a) ↔ o = some a := by
  cases o with
  | none => simp
  | some b => simp only [Option.map_some, Option.some.injEq]; exact ⟨hg b a, fun h => h ▸ rfl⟩

theorem round (f : Format) (t : Ty) : ∀ v, HasTy t v → (de f t (ser v) = some v ↔ Lends f t v) := by
  have seqs : ∀ (u : Ty), (∀ v, HasTy u v → (de f u (ser v) = some v ↔ Lends f u v)) → ∀ l, HaveTy u l →
      ((des f u (sers l)).map Val.list = some (.list l) ↔ ∀ v ∈ elems l, Lends f u v) := by
    intro u H l h
    rw [map_iff _ (by intro a b e; cases e; rfl)]
    exact des_iff _ H l h
  induction t with
  | int lo hi => intro v h; cases v <;> simp only [HasTy] at h; simp [ser, de, deInt, h, Lends]
  | nonX lo hi x => intro v h; cases v <;> simp only [HasTy] at h; simp [ser, de, deNonX, deInt, h, Lends]
  | strRef => intro v h; cases v <;> simp only [HasTy] at h; simp only [ser, de, Lends, deStr_iff]
  | string => intro v h; cases v <;> simp only [HasTy] at h; simp only [ser, de, deString, Lends, deStr_iff]
  | boxedStr => intro v h; cases v <;> simp only [HasTy] at h; simp only [ser, de, deString, Lends, deStr_iff]
  | arcStr => intro v h; cases v <;> simp only [HasTy] at h; simp only [ser, de, deString, Lends, deStr_iff]
  | vec t ih => intro v h; cases v <;> simp only [HasTy] at h; simp only [ser, de, Lends]; exact seqs t ih _ h
  | boxedSlice t ih => intro v h; cases v <;> simp only [HasTy] at h; simp only [ser, de, Lends]; exact seqs t ih _ h
  | arcSlice t ih => intro v h; cases v <;> simp only [HasTy] at h; simp only [ser, de, Lends]; exact seqs t ih _ h
  | option t ih =>
    intro v h
    cases v <;> simp only [HasTy] at h
    · simp [ser, de, Lends]
    · simp only [ser, de, Lends]; rw [map_iff _ (by intro a b e; cases e; rfl)]; exact ih _ h
  | result t e iht ihe =>
    intro v h
    cases v <;> simp only [HasTy] at h
    · simp only [ser, de, Lends, if_true]; rw [map_iff _ (by intro a b e; cases e; rfl)]; exact iht _ h
    · simp only [ser, de, Lends, if_true, show ("Err" = "Ok") = False by decide, if_false]
      rw [map_iff _ (by intro a b e; cases e; rfl)]; exact ihe _ h
  | bytesRef =>
    intro v h
    cases v <;> simp only [HasTy] at h
    simp only [ser, de, Lends]
    cases hb : f.bytes with
    | false => simp
    | true =>
      simp only [if_true, iff_true]
      rw [map_iff _ (by intro a b e; cases e; rfl)]
      refine (des_iff (fun _ => True) ?_ _ h).mpr (fun _ _ => trivial)
      intro v h
      cases v <;> simp only [HasTy] at h
      simp [ser, de, deInt, h]

/-- **C70 (partial).** A value can be read back exactly if the format lends the deserializer every text and every slice of bytes in it. -/
theorem C70_round_trip_partial (f : Format) (t : Ty) (v : Val) (h : HasTy t v) : de f t (ser v) = some v ↔ Lends f t v :=
  round f t v h

/-- Types without text and borrowed bytes. -/
def Plain : Ty → Prop
  | .int _ _ | .nonX _ _ _ => True
  | .vec t | .boxedSlice t | .arcSlice t | .option t => Plain t
  | .result t e => Plain t ∧ Plain e
  | _ => False

theorem plain_lends (f : Format) (t : Ty) (h : Plain t) : ∀ v, Lends f t v := by
  induction t with
  | int _ _ => intro v; simp [Lends]
  | nonX _ _ _ => intro v; simp [Lends]
  | strRef => exact absurd h id
  | string => exact absurd h id
  | boxedStr => exact absurd h id
  | arcStr => exact absurd h id
  | bytesRef => exact absurd h id
  | vec t ih => intro v; cases v <;> simp only [Lends]; exact fun v _ => ih h v
  | boxedSlice t ih => intro v; cases v <;> simp only [Lends]; exact fun v _ => ih h v
  | arcSlice t ih => intro v; cases v <;> simp only [Lends]; exact fun v _ => ih h v
  | option t ih => intro v; cases v <;> simp only [Lends]; exact ih h _
  | result t e iht ihe =>
    intro v
    cases v <;> simp only [Lends]
    · exact iht h.1 _
    · exact ihe h.2 _

/-- **C70.** Numbers, and vectors, boxed slices, shared slices, options and results of them can be read back from every format. -/
theorem C70_round_trip (f : Format) (t : Ty) (v : Val) (hp : Plain t) (h : HasTy t v) : de f t (ser v) = some v :=
  (round f t v h).mpr (plain_lends f t hp v)

theorem deInt_some {lo hi : Int} {n : Node} {v : Val} (h : deInt lo hi n = some v) : ∃ k, n = .num k ∧ v = .int k ∧ lo ≤ k ∧ k ≤ hi := by
  cases n <;> simp only [deInt] at h <;> try contradiction
  rename_i k
  by_cases c : lo ≤ k ∧ k ≤ hi
  · rw [if_pos c] at h; cases h; exact ⟨k, rfl, rfl, c.1, c.2⟩
  · rw [if_neg c] at h; cases h

theorem deStr_some {f : Format} {n : Node} {v : Val} (h : deStr f n = some v) : ∃ s, n = .str s ∧ v = .text s := by
  cases n <;> simp only [deStr] at h <;> try contradiction
  rename_i s
  cases hm : f.mode s <;> rw [hm] at h <;> simp only [visitStr] at h <;> cases h
  exact ⟨s, rfl, rfl⟩

theorem des_back {f : Format} {t : Ty} (H : ∀ n v, de f t n = some v → HasTy t v ∧ ser v = n) :
    ∀ (l : List Node) (k : Vals), des f t l = some k → HaveTy t k ∧ sers k = l
  | [], k, h => by simp only [des] at h; cases h; simp [HaveTy, sers]
  | n :: l, k, h => by
    simp only [des] at h
    split at h
    · rename_i v k' hv hk
      cases h
      have h1 := H n v hv
      have h2 := des_back H l k' hk
      simp [HaveTy, sers, h1, h2]
    · cases h

theorem back (f : Format) (t : Ty) : ∀ n v, de f t n = some v → HasTy t v ∧ ser v = n := by
  have str : ∀ n v, deStr f n = some v → ∃ s, v = .text s ∧ ser v = n := by
    intro n v h
    obtain ⟨s, rfl, rfl⟩ := deStr_some h
    exact ⟨s, rfl, rfl⟩
  have seq : ∀ (u : Ty), (∀ n v, de f u n = some v → HasTy u v ∧ ser v = n) → ∀ l v, (des f u l).map Val.list = some v →
      ∃ k, v = .list k ∧ HaveTy u k ∧ ser v = .seq l := by
    intro u H l v h
    obtain ⟨k, hk, rfl⟩ := Option.map_eq_some_iff.mp h
    have := des_back H l k hk
    exact ⟨k, rfl, this.1, by simp [ser, this.2]⟩
  induction t with
  | int lo hi => intro n v h; simp only [de] at h; obtain ⟨k, rfl, rfl, h1, h2⟩ := deInt_some h; simp [HasTy, ser, h1, h2]
  | nonX lo hi x =>
    intro n v h
    simp only [de, deNonX] at h
    split at h
    · rename_i k hk
      obtain ⟨k', rfl, e, h1, h2⟩ := deInt_some hk
      cases e
      split at h
      · rename_i hx; cases h; simp [HasTy, ser, h1, h2, hx]
      · cases h
    · cases h
  | strRef => intro n v h; simp only [de] at h; obtain ⟨s, rfl, e⟩ := str n v h; exact ⟨by simp [HasTy], e⟩
  | string => intro n v h; simp only [de, deString] at h; obtain ⟨s, rfl, e⟩ := str n v h; exact ⟨by simp [HasTy], e⟩
  | boxedStr => intro n v h; simp only [de, deString] at h; obtain ⟨s, rfl, e⟩ := str n v h; exact ⟨by simp [HasTy], e⟩
  | arcStr => intro n v h; simp only [de, deString] at h; obtain ⟨s, rfl, e⟩ := str n v h; exact ⟨by simp [HasTy], e⟩
  | vec t ih =>
    intro n v h
    cases n <;> simp only [de] at h <;> try contradiction
    obtain ⟨k, rfl, h1, h2⟩ := seq t ih _ _ h; exact ⟨by simpa [HasTy] using h1, h2⟩
  | boxedSlice t ih =>
    intro n v h
    cases n <;> simp only [de] at h <;> try contradiction
    obtain ⟨k, rfl, h1, h2⟩ := seq t ih _ _ h; exact ⟨by simpa [HasTy] using h1, h2⟩
  | arcSlice t ih =>
    intro n v h
    cases n <;> simp only [de] at h <;> try contradiction
    obtain ⟨k, rfl, h1, h2⟩ := seq t ih _ _ h; exact ⟨by simpa [HasTy] using h1, h2⟩
  | option t ih =>
    intro n v h
    cases n <;> simp only [de] at h <;> try contradiction
    · cases h; simp [HasTy, ser]
    · obtain ⟨w, hw, rfl⟩ := Option.map_eq_some_iff.mp h
      have := ih _ _ hw
      simp [HasTy, ser, this]
  | result t e iht ihe =>
    intro n v h
    cases n <;> simp only [de] at h <;> try contradiction
    rename_i name n
    by_cases c : name = "Ok"
    · rw [if_pos c] at h
      obtain ⟨w, hw, rfl⟩ := Option.map_eq_some_iff.mp h
      have := iht _ _ hw
      simp [HasTy, ser, this, c]
    · rw [if_neg c] at h
      by_cases c' : name = "Err"
      · rw [if_pos c'] at h
        obtain ⟨w, hw, rfl⟩ := Option.map_eq_some_iff.mp h
        have := ihe _ _ hw
        simp [HasTy, ser, this, c']
      · rw [if_neg c'] at h; cases h
  | bytesRef =>
    intro n v h
    cases n <;> simp only [de] at h <;> try contradiction
    split at h
    · obtain ⟨k, rfl, h1, h2⟩ := seq (.int 0 255) (by
        intro n v h; simp only [de] at h; obtain ⟨k, rfl, rfl, h1, h2⟩ := deInt_some h; simp [HasTy, ser, h1, h2]) _ _ h
      exact ⟨by simpa [HasTy] using h1, h2⟩
    · cases h

/-- **C70.** Whatever the input, what is deserialised has the type (no forbidden number is ever made), and serialises to the input. -/
theorem C70_valid (f : Format) (t : Ty) (n : Node) (v : Val) (h : de f t n = some v) : HasTy t v ∧ ser v = n := back f t n v h

/-- **C70.** Different values of a type are serialised differently. -/
theorem C70_injective (t : Ty) (v w : Val) (hv : HasTy t v) (hw : HasTy t w) (e : ser v = ser w) : v = w := by
  have lend : ∀ t v, Lends ⟨fun _ => .borrowed, true, fun _ => none⟩ t v := by
    intro t
    induction t with
    | int _ _ => intro v; simp [Lends]
    | nonX _ _ _ => intro v; simp [Lends]
    | strRef => intro v; cases v <;> simp [Lends]
    | string => intro v; cases v <;> simp [Lends]
    | boxedStr => intro v; cases v <;> simp [Lends]
    | arcStr => intro v; cases v <;> simp [Lends]
    | bytesRef => intro v; cases v <;> simp [Lends]
    | vec t ih => intro v; cases v <;> simp only [Lends]; exact fun v _ => ih v
    | boxedSlice t ih => intro v; cases v <;> simp only [Lends]; exact fun v _ => ih v
    | arcSlice t ih => intro v; cases v <;> simp only [Lends]; exact fun v _ => ih v
    | option t ih => intro v; cases v <;> simp only [Lends]; exact ih _
    | result t e iht ihe =>
      intro v
      cases v <;> simp only [Lends]
      · exact iht _
      · exact ihe _
  have h1 := (round _ t v hv).mpr (lend t v)
  have h2 := (round _ t w hw).mpr (lend t w)
  rw [e] at h1
  rw [h1] at h2
  cases h2
  rfl

/-- **C70, refuted part.** Owned strings cannot be read from a format that does not lend its strings (as JSON with an escaped character, or from a reader):
`String`, `BoxedStr` and `ArcStr` are refused, though core's `String` is not. -/
theorem C70_owned_refuted (f : Format) (s : List Char) (h : f.mode s ≠ .borrowed) :
    HasTy .string (.text s) ∧ de f .string (ser (.text s)) = none ∧ de f .boxedStr (ser (.text s)) = none ∧ de f .arcStr (ser (.text s)) = none := by
  have : deStr f (.str s) = none := by
    cases hm : f.mode s <;> simp_all [deStr, visitStr]
  simp [HasTy, ser, de, deString, this]

/-- **C70, refuted part.** `Slice<u8>` is written as a sequence but read as bytes: formats that tell the two apart refuse every one of them, also the empty one. -/
theorem C70_bytes_refuted (f : Format) (h : f.bytes = false) (l : Vals) : de f .bytesRef (ser (.list l)) = none := by
  simp [ser, de, h]

/-- What is reserved before anything is read: what the format says, nothing if it does not say. -/
theorem C70_reserved (f : Format) (l : List Node) (n : Nat) : reserved f l = n ↔ f.hint l = some n ∨ (f.hint l = none ∧ n = 0) := by
  unfold reserved
  cases f.hint l <;> simp [eq_comm]

/-- **C70, refuted part.** The memory that `Vec::deserialize` asks for before it reads an element is what the input announces, however short the input is. -/
theorem C70_hint_refuted (n : Nat) : ∃ f : Format, reserved f [] = n ∧ de f (.vec (.int 0 255)) (.seq []) = some (.list .nil) :=
  ⟨⟨fun _ => .borrowed, true, fun _ => some n⟩, rfl, by simp [de, des]⟩

/-- A format with escapes, as JSON. -/
def exFormat : Format := ⟨fun s => if '"' ∈ s then .transient else .borrowed, false, fun _ => none⟩

example : HasTy (.vec (.result .string (.option (.nonX 0 255 255))))
    (.list (.cons (.ok (.text ['a'])) (.cons (.err (.some (.int 254))) (.cons (.err .none) .nil)))) := by simp [HasTy, HaveTy]

example : Lends exFormat (.vec (.result .string (.option (.nonX 0 255 255))))
    (.list (.cons (.ok (.text ['a'])) (.cons (.err (.some (.int 254))) (.cons (.err .none) .nil)))) := by simp [Lends, elems, exFormat]

example : Plain (.vec (.option (.nonX 0 255 255))) := trivial

example : exFormat.mode ['"'] ≠ .borrowed ∧ exFormat.bytes = false := by simp [exFormat]

example : de exFormat (.vec (.nonX 0 255 255)) (.seq [.num 3, .num 255]) = none := by
  simp [de, des, deNonX, deInt]

end Verif.Props.Serde
