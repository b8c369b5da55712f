import Verif.Buffer.Meta

/-!
# C56: attributes of component buffers

Addresses, sizes and offsets below are those that the functions of the meta data report, so that the statements also say what a program finds that
accesses the buffer by its own pointer arithmetic.
-/

namespace PGM.Buffer

open PGM.CApi (Exn Handle callWithCatch defaultHandler)

/-! ## Specification -/

/-- The address of an attribute of element `i`. -/
def addressOf (c : Component) (a : Attr) (buf i : Int) : Int := buf + i * c.size + a.offset

/-- The address `x` is one of the `n` bytes from `p` on. -/
def Within (p : Int) (n : Nat) (x : Int) : Prop := p ≤ x ∧ x < p + n

/-- There is a buffer of `n` elements at `buf`. -/
structure IsBuffer (m : Mem) (c : Component) (buf : Int) (n : Nat) : Prop where
  nonzero : buf ≠ 0
  aligned : (c.alignment : Int) ∣ buf
  valid : ∀ x, Within buf (n * c.size) x → m.valid x = true

/-- There is an array of values of type `t` with distance `st` at `p`; the elements `off` to `off + size - 1` may be accessed, and they do not overlap the
buffer. -/
structure IsArray (m : Mem) (t : CType) (p st off size : Int) (c : Component) (buf : Int) (n : Nat) : Prop where
  nonzero : p ≠ 0
  aligned : (t.align : Int) ∣ p
  step : (t.align : Int) ∣ st
  valid : ∀ i, off ≤ i → i < off + size → ∀ x, Within (p + st * i) t.size x → m.valid x = true
  apart : ∀ i, off ≤ i → i < off + size → ∀ x, Within (p + st * i) t.size x → ¬ Within buf (n * c.size) x

/-- The stride that is meant: a negative one stands for the size of the type. -/
def Meant (t : CType) (stride st : Int) : Prop := (stride < 0 ∧ st = t.size) ∨ (0 ≤ stride ∧ st = stride)

/-- The bytes of an attribute of element `i`. -/
def field (m : Mem) (c : Component) (a : Attr) (buf i : Int) (j : Nat) : UInt8 := m.byte (addressOf c a buf i + j)

/-! ## Setting and getting values -/

theorem element_within {c : Component} {buf : Int} {n : Nat} {i : Int} (h0 : 0 ≤ i) (hi : i < n) {o k : Nat} (ho : o + k ≤ c.size) {x : Int}
    (hx : Within (buf + i * c.size + o) k x) : Within buf (n * c.size) x := by
  obtain ⟨h1, h2⟩ := hx
  have : 0 ≤ i * (c.size : Int) := mul_nonneg h0 (by omega)
  have : (i + 1) * (c.size : Int) ≤ n * c.size := mul_le_mul_of_nonneg_right (by omega) (by omega)
  refine ⟨by omega, ?_⟩
  push_cast
  linarith [show (o : Int) + k ≤ c.size by exact_mod_cast ho]

theorem attr_accessible {name : String} {S : Struct} {a : Attr} (ha : a ∈ (metaComponent name S).attributes) {buf : Int} {n : Nat} {m : Mem}
    (hb : IsBuffer m (metaComponent name S) buf n) {i : Int} (h0 : 0 ≤ i) (hi : i < n) :
    accessible m (addressOf (metaComponent name S) a buf i) a.ctype.size a.ctype.align = true := by
  obtain ⟨l1, l2, _⟩ := attribute_layout name S
  obtain ⟨_, g2, g3, g4⟩ := l2 a ha
  refine accessible_iff.mpr ⟨?_, fun x hx hx' => hb.valid x (element_within h0 hi g2 ⟨hx, hx'⟩)⟩
  have e1 : (a.ctype.align : Int) ∣ buf := (Int.natCast_dvd_natCast.mpr g4).trans hb.aligned
  have e2 : (a.ctype.align : Int) ∣ i * (metaComponent name S).size := (Int.natCast_dvd_natCast.mpr (g4.trans l1)).trans (Int.dvd_mul_left _ _)
  exact Int.dvd_add (Int.dvd_add e1 e2) (Int.natCast_dvd_natCast.mpr g3)

theorem array_accessible {m : Mem} {t : CType} {p st off size : Int} {c : Component} {buf : Int} {n : Nat} (h : IsArray m t p st off size c buf n) {i : Int}
    (h0 : off ≤ i) (hi : i < off + size) : accessible m (p + st * i) t.size t.align = true :=
  accessible_iff.mpr ⟨Int.dvd_add h.aligned (h.step.trans (Int.dvd_mul_right _ _)), fun x hx hx' => h.valid i h0 hi x ⟨hx, hx'⟩⟩

theorem apart_of {t : CType} {a b : Int} (h : ∀ x, Within a t.size x → ¬ Within b t.size x) : Apart t.size a b := by
  have hp := t.size_pos
  by_contra hne
  unfold Apart at hne
  rw [not_or, not_le, not_le] at hne
  by_cases hab : a ≤ b
  · exact h b ⟨hab, by omega⟩ ⟨le_refl _, by omega⟩
  · exact h a ⟨le_refl _, by omega⟩ ⟨by omega, by omega⟩

theorem stride_meant {a : Attr} {stride st : Int} (h : Meant a.ctype stride st) : strideOf a stride = st := by
  unfold strideOf
  rcases h with ⟨h, rfl⟩ | ⟨h, rfl⟩
  · rw [if_pos h]
  · rw [if_neg (by omega)]

theorem elements_apart {name : String} {S : Struct} {a : Attr} (ha : a ∈ (metaComponent name S).attributes) (buf : Int) {i j : Int} (h : i < j) :
    Apart a.ctype.size (addressOf (metaComponent name S) a buf i) (addressOf (metaComponent name S) a buf j) := by
  obtain ⟨_, l2, _⟩ := attribute_layout name S
  obtain ⟨_, g2, _, _⟩ := l2 a ha
  left
  unfold addressOf
  have : (i + 1) * ((metaComponent name S).size : Int) ≤ j * (metaComponent name S).size := mul_le_mul_of_nonneg_right (by omega) (by omega)
  linarith [show (a.offset : Int) + a.ctype.size ≤ (metaComponent name S).size by exact_mod_cast g2]

/-- **C56, setting values.** `PGM_buffer_set_value` copies the values of the array, element by element, to the attribute of the elements from `off` on,
clears the error and changes nothing else in memory. -/
theorem set_value_exact {name : String} {S : Struct} {a : Attr} (ha : a ∈ (metaComponent name S).attributes) {buf : Int} {n : Nat} {m : Mem}
    (hb : IsBuffer m (metaComponent name S) buf n) {off size : Int} (h0 : 0 ≤ off) (hs : 0 ≤ size) (hn : off + size ≤ n) {src stride st : Int}
    (hst : Meant a.ctype stride st) (hsrc : IsArray m a.ctype src st off size (metaComponent name S) buf n) (h : Option Handle) :
    ∃ m', bufferSetValue h (some a) buf src off size stride m = some (m', h.map fun _ => {}) ∧ m'.valid = m.valid ∧
      (∀ i, off ≤ i → i < off + size → ∀ j, j < a.ctype.size → field m' (metaComponent name S) a buf i j = m.byte (src + st * i + (j : Nat))) ∧
      ∀ x, (∀ i, off ≤ i → i < off + size → ¬ Within (addressOf (metaComponent name S) a buf i) a.ctype.size x) → m'.byte x = m.byte x := by
  have hcs : a.componentSize = (metaComponent name S).size := ((attribute_layout name S).2.1 a ha).1
  have hlay := ((attribute_layout name S).2.1 a ha).2.1
  by_cases hz : size = 0
  · subst hz
    exact ⟨m, by cases h <;> rfl, rfl, fun i h1 h2 => by omega, fun x _ => rfl⟩
  · have hk : ∀ k : Nat, k < size.toNat → off ≤ off + (k : Int) ∧ off + (k : Int) < off + size := fun k hk => by omega
    obtain ⟨m', h1, h2, h3, h4⟩ := copy_all a.ctype (fun k => src + st * (off + k)) (fun k => addressOf (metaComponent name S) a buf (off + k)) size.toNat m
      (fun k hk' => array_accessible hsrc (hk k hk').1 (hk k hk').2)
      (fun k hk' => attr_accessible ha hb (by omega) (by omega))
      (fun k k' hk1 hk2 => apart_of fun x hx hx' => hsrc.apart _ (hk k hk1).1 (hk k hk1).2 x hx (element_within (by omega) (by omega) hlay hx'))
      (fun k k' hkk hk' => elements_apart ha buf (by omega))
    refine ⟨m', ?_, h2, fun i hi hi' j hj => ?_, fun x hx => h4 x fun k hk' => hx _ (hk k hk').1 (hk k hk').2⟩
    · unfold bufferSetValue call withPtr getSet
      dsimp only
      rw [if_neg (by omega), if_neg hsrc.nonzero, if_neg hb.nonzero, stride_meant hst]
      have e : transferStep false a buf src off st = fun m (k : Nat) => copy a.ctype (src + st * (off + k)) (addressOf (metaComponent name S) a buf (off + k)) m := by
        funext m k
        unfold transferStep setValue memberAddress addressOf
        rw [hcs]
        rfl
      rw [e, h1]
      cases h <;> rfl
    · have := h3 (i - off).toNat (by omega) j hj
      simp only [Int.toNat_of_nonneg (show 0 ≤ i - off by omega), add_sub_cancel] at this
      exact this

/-- **C56, getting values.** `PGM_buffer_get_value` copies the attribute of the elements from `off` on to the array, clears the error and changes nothing
else in memory. The places in the array must not overlap. -/
theorem get_value_exact {name : String} {S : Struct} {a : Attr} (ha : a ∈ (metaComponent name S).attributes) {buf : Int} {n : Nat} {m : Mem}
    (hb : IsBuffer m (metaComponent name S) buf n) {off size : Int} (h0 : 0 ≤ off) (hs : 0 ≤ size) (hn : off + size ≤ n) {dest stride st : Int}
    (hst : Meant a.ctype stride st) (hwide : (a.ctype.size : Int) ≤ st) (hdest : IsArray m a.ctype dest st off size (metaComponent name S) buf n)
    (h : Option Handle) :
    ∃ m', bufferGetValue h (some a) buf dest off size stride m = some (m', h.map fun _ => {}) ∧ m'.valid = m.valid ∧
      (∀ i, off ≤ i → i < off + size → ∀ j, j < a.ctype.size → m'.byte (dest + st * i + (j : Nat)) = field m (metaComponent name S) a buf i j) ∧
      ∀ x, (∀ i, off ≤ i → i < off + size → ¬ Within (dest + st * i) a.ctype.size x) → m'.byte x = m.byte x := by
  have hcs : a.componentSize = (metaComponent name S).size := ((attribute_layout name S).2.1 a ha).1
  have hlay := ((attribute_layout name S).2.1 a ha).2.1
  by_cases hz : size = 0
  · subst hz
    exact ⟨m, by cases h <;> rfl, rfl, fun i h1 h2 => by omega, fun x _ => rfl⟩
  · have hk : ∀ k : Nat, k < size.toNat → off ≤ off + (k : Int) ∧ off + (k : Int) < off + size := fun k hk => by omega
    obtain ⟨m', h1, h2, h3, h4⟩ := copy_all a.ctype (fun k => addressOf (metaComponent name S) a buf (off + k)) (fun k => dest + st * (off + k)) size.toNat m
      (fun k hk' => attr_accessible ha hb (by omega) (by omega))
      (fun k hk' => array_accessible hdest (hk k hk').1 (hk k hk').2)
      (fun k k' hk1 hk2 => (apart_of fun x hx hx' => hdest.apart _ (hk k' hk2).1 (hk k' hk2).2 x hx (element_within (by omega) (by omega) hlay hx')).symm)
      (fun k k' hkk hk' => by
        left
        have : st * ((off + (k : Int)) + 1) ≤ st * (off + k') := mul_le_mul_of_nonneg_left (by omega) (by omega)
        linarith)
    refine ⟨m', ?_, h2, fun i hi hi' j hj => ?_, fun x hx => h4 x fun k hk' => hx _ (hk k hk').1 (hk k hk').2⟩
    · unfold bufferGetValue call withPtr getSet
      dsimp only
      rw [if_neg (by omega), if_neg hdest.nonzero, if_neg hb.nonzero, stride_meant hst]
      have e : transferStep true a buf dest off st = fun m (k : Nat) => copy a.ctype (addressOf (metaComponent name S) a buf (off + k)) (dest + st * (off + k)) m := by
        funext m k
        unfold transferStep getValue memberAddress addressOf
        rw [hcs]
        rfl
      rw [e, h1]
      cases h <;> rfl
    · have := h3 (i - off).toNat (by omega) j hj
      simp only [Int.toNat_of_nonneg (show 0 ≤ i - off by omega), add_sub_cancel] at this
      exact this

/-- **C56, other attributes and elements.** Setting an attribute of some elements changes no other attribute and no other element of the buffer. -/
theorem set_value_others {name : String} {S : Struct} {a : Attr} (ha : a ∈ (metaComponent name S).attributes) {buf : Int} {n : Nat} {m : Mem}
    (hb : IsBuffer m (metaComponent name S) buf n) {off size : Int} (h0 : 0 ≤ off) (hs : 0 ≤ size) (hn : off + size ≤ n) {src stride st : Int}
    (hst : Meant a.ctype stride st) (hsrc : IsArray m a.ctype src st off size (metaComponent name S) buf n) {h h' : Option Handle} {m' : Mem}
    (hcall : bufferSetValue h (some a) buf src off size stride m = some (m', h')) {b : Attr} (hb' : b ∈ (metaComponent name S).attributes) {i : Int}
    (hi : b.name ≠ a.name ∨ i < off ∨ off + size ≤ i) {j : Nat} (hj : j < b.ctype.size) :
    field m' (metaComponent name S) b buf i j = field m (metaComponent name S) b buf i j := by
  obtain ⟨m1, h1, _, _, h4⟩ := set_value_exact ha hb h0 hs hn hst hsrc h
  rw [h1] at hcall
  injection hcall with hcall
  obtain ⟨rfl, _⟩ := Prod.mk.inj hcall
  refine h4 _ fun k hk hk' hw => ?_
  obtain ⟨_, l2, l3⟩ := attribute_layout name S
  obtain ⟨_, ga, _, _⟩ := l2 a ha
  obtain ⟨_, gb, _, _⟩ := l2 b hb'
  obtain ⟨w1, w2⟩ := hw
  unfold addressOf at w1 w2
  have ga' : (a.offset : Int) + a.ctype.size ≤ (metaComponent name S).size := by exact_mod_cast ga
  have gb' : (b.offset : Int) + b.ctype.size ≤ (metaComponent name S).size := by exact_mod_cast gb
  have hjz : (j : Int) < b.ctype.size := by exact_mod_cast hj
  rcases lt_trichotomy i k with hik | hik | hik
  · have : (i + 1) * ((metaComponent name S).size : Int) ≤ k * (metaComponent name S).size := mul_le_mul_of_nonneg_right (by omega) (by omega)
    linarith [show (0 : Int) ≤ a.offset by omega]
  · subst hik
    rcases hi with hne | hlt | hle
    · rcases l3 b hb' a ha hne with hab | hab
      · have : (b.offset : Int) + b.ctype.size ≤ a.offset := by exact_mod_cast hab
        linarith
      · have : (a.offset : Int) + a.ctype.size ≤ b.offset := by exact_mod_cast hab
        linarith
    · omega
    · omega
  · have : (k + 1) * ((metaComponent name S).size : Int) ≤ i * (metaComponent name S).size := mul_le_mul_of_nonneg_right (by omega) (by omega)
    linarith [show (0 : Int) ≤ b.offset by omega, show (0 : Int) ≤ j by omega]

theorem IsBuffer.same {m m' : Mem} {c : Component} {buf : Int} {n : Nat} (h : IsBuffer m c buf n) (e : m'.valid = m.valid) : IsBuffer m' c buf n :=
  ⟨h.nonzero, h.aligned, fun x hx => by rw [e]; exact h.valid x hx⟩

theorem IsArray.same {m m' : Mem} {t : CType} {p st off size : Int} {c : Component} {buf : Int} {n : Nat} (h : IsArray m t p st off size c buf n)
    (e : m'.valid = m.valid) : IsArray m' t p st off size c buf n :=
  ⟨h.nonzero, h.aligned, h.step, fun i h1 h2 x hx => by rw [e]; exact h.valid i h1 h2 x hx, h.apart⟩

/-- **C56, round trip.** What is set is what is then read, for every type, offset, size and stride. -/
theorem set_get {name : String} {S : Struct} {a : Attr} (ha : a ∈ (metaComponent name S).attributes) {buf : Int} {n : Nat} {m : Mem}
    (hb : IsBuffer m (metaComponent name S) buf n) {off size : Int} (h0 : 0 ≤ off) (hs : 0 ≤ size) (hn : off + size ≤ n) {src stride st : Int}
    (hst : Meant a.ctype stride st) (hsrc : IsArray m a.ctype src st off size (metaComponent name S) buf n) {dest stride' st' : Int}
    (hst' : Meant a.ctype stride' st') (hwide : (a.ctype.size : Int) ≤ st') (hdest : IsArray m a.ctype dest st' off size (metaComponent name S) buf n)
    (h : Option Handle) :
    ∃ m' m'', bufferSetValue h (some a) buf src off size stride m = some (m', h.map fun _ => {}) ∧
      bufferGetValue h (some a) buf dest off size stride' m' = some (m'', h.map fun _ => {}) ∧
      ∀ i, off ≤ i → i < off + size → ∀ j, j < a.ctype.size → m''.byte (dest + st' * i + (j : Nat)) = m.byte (src + st * i + (j : Nat)) := by
  obtain ⟨m', h1, h2, h3, _⟩ := set_value_exact ha hb h0 hs hn hst hsrc h
  obtain ⟨m'', g1, _, g3, _⟩ := get_value_exact ha (hb.same h2) h0 hs hn hst' hwide (hdest.same h2) h
  exact ⟨m', m'', h1, g1, fun i hi hi' j hj => by rw [g3 i hi hi' j hj, h3 i hi hi' j hj]⟩

/-- **C56, nothing to do.** Without elements nothing happens, whatever the pointers are. -/
theorem no_elements (h : Option Handle) (a : Attr) (buf p off stride : Int) {size : Int} (hs : size ≤ 0) (m : Mem) :
    bufferSetValue h (some a) buf p off size stride m = some (m, h.map fun _ => {}) ∧
    bufferGetValue h (some a) buf p off size stride m = some (m, h.map fun _ => {}) := by
  unfold bufferSetValue bufferGetValue call withPtr getSet
  dsimp only
  rw [if_pos hs, if_pos hs]
  cases h <;> exact ⟨rfl, rfl⟩

/-- **C56, null pointers.** A null pointer is reported and nothing is changed. -/
theorem null_pointer (h : Handle) (a : Option Attr) (buf p off stride : Int) {size : Int} (hs : 0 < size) (hn : a = none ∨ buf = 0 ∨ p = 0) (m : Mem) :
    ∃ msg, bufferSetValue (some h) a buf p off size stride m = some (m, some { errCode := 1, errMsg := msg }) ∧
      bufferGetValue (some h) a buf p off size stride m = some (m, some { errCode := 1, errMsg := msg }) := by
  refine ⟨"Illegal operation: Received null pointer when not allowed\n", ?_⟩
  unfold bufferSetValue bufferGetValue call withPtr
  cases a with
  | none => exact ⟨rfl, rfl⟩
  | some a =>
    dsimp only
    unfold getSet
    rw [if_neg (by omega)]
    by_cases hp : p = 0
    · rw [if_pos hp, if_neg (by omega), if_pos hp]
      exact ⟨rfl, rfl⟩
    · have hbuf : buf = 0 := by rcases hn with hn | hn | hn <;> simp_all
      rw [if_neg hp, if_pos hbuf, if_neg (by omega), if_neg hp, if_pos hbuf]
      exact ⟨rfl, rfl⟩

/-- **C56, null pointers.** The same for the functions of whole elements. -/
theorem null_component (pad : Int → UInt8) (alloc : Nat → Nat → Int) (h : Handle) (c : Component) (buf off size : Int) (m : Mem) :
    ∃ msg, bufferSetNan pad (some h) none buf off size m = some (m, some { errCode := 1, errMsg := msg }) ∧
      bufferSetNan pad (some h) (some c) 0 off size m = some (m, some { errCode := 1, errMsg := msg }) ∧
      createBuffer alloc (some h) none size = (0, some { errCode := 1, errMsg := msg }) :=
  ⟨"Illegal operation: Received null pointer when not allowed\n", rfl, rfl, rfl⟩

/-! ## Setting to NaN -/

/-- **C56, NaN.** `PGM_buffer_set_nan` makes all attributes of the given elements "not available", as the check used by updates sees it, and changes
nothing outside of these elements. -/
theorem set_nan_exact (pad : Int → UInt8) (name : String) (S : Struct) {buf : Int} {n : Nat} {m : Mem} (hb : IsBuffer m (metaComponent name S) buf n)
    {off size : Int} (h0 : 0 ≤ off) (hs : 0 ≤ size) (hn : off + size ≤ n) (h : Option Handle) :
    ∃ m', bufferSetNan pad h (some (metaComponent name S)) buf off size m = some (m', h.map fun _ => {}) ∧ m'.valid = m.valid ∧
      (∀ a ∈ (metaComponent name S).attributes, ∀ i, off ≤ i → i < off + size → checkNan a buf i m' = some true) ∧
      ∀ x, (∀ i, off ≤ i → i < off + size → ¬ Within (buf + i * (metaComponent name S).size) (metaComponent name S).size x) → m'.byte x = m.byte x := by
  obtain ⟨m', h1, h2, h3, h4⟩ := set_nan_all pad S.members buf off size.toNat m fun k hk => by
    refine accessible_iff.mpr ⟨Int.dvd_add hb.aligned ?_, fun x hx hx' => hb.valid x ?_⟩
    · exact (Int.natCast_dvd_natCast.mpr (recordAlign_dvd_size _)).trans (Int.dvd_mul_left _ _)
    · exact element_within (i := off + k) (o := 0) (k := recordSize S.members) (by omega) (by omega) (by rw [Nat.zero_add]; exact le_refl _)
        ⟨by simpa [metaComponent] using hx, by simpa [metaComponent] using hx'⟩
  refine ⟨m', ?_, h2, fun a ha i hi hi' => ?_, fun x hx => ?_⟩
  · unfold bufferSetNan call withPtr setNan
    dsimp only
    rw [if_neg hb.nonzero, if_neg (by omega)]
    show Option.map _ (Option.map _ (List.foldlM (fun m (k : Nat) => nanElement pad S.members (buf + (off + ↑k) * ↑(recordSize S.members)) m) m _)) = _
    rw [h1]
    cases h <;> rfl
  · have hacc := attr_accessible ha (hb.same h2) (i := i) (by omega) (by omega)
    obtain ⟨hm, hcs⟩ := attr_mem ha
    unfold checkNan load memberAddress
    rw [hcs]
    rw [if_pos (show accessible m' (buf + i * (recordSize S.members : Int) + a.offset) a.ctype.size a.ctype.align = true from hacc)]
    show some (isNan a.ctype _) = some true
    rw [isNan_bytes]
    intro j hj
    have := h3 (i - off).toNat (by omega) _ hm j hj
    simp only [Int.toNat_of_nonneg (show 0 ≤ i - off by omega), add_sub_cancel] at this
    exact this
  · refine h4 x fun k hk hw => hx (off + k) (by omega) (by omega) ?_
    exact hw

/-- The check of a whole column is the check of all its elements. -/
theorem checkAllNan_true {a : Attr} {buf : Int} {m : Mem} (size : Nat) (h : ∀ i : Nat, i < size → checkNan a buf i m = some true) :
    checkAllNan a buf size m = some true := by
  unfold checkAllNan
  induction size with
  | zero => rfl
  | succ n ih =>
    rw [List.range_succ, List.foldlM_append, ih fun i hi => h i (by omega)]
    show (allNanStep a buf m true n).bind some = _
    unfold allNanStep
    rw [if_pos rfl, h n (by omega)]
    rfl

/-- **C56, NaN.** A buffer that was set to NaN as a whole is seen as all NaN. -/
theorem set_nan_all_nan (pad : Int → UInt8) (name : String) (S : Struct) {buf : Int} {n : Nat} {m : Mem} (hb : IsBuffer m (metaComponent name S) buf n)
    (h : Option Handle) :
    ∃ m', bufferSetNan pad h (some (metaComponent name S)) buf 0 n m = some (m', h.map fun _ => {}) ∧
      ∀ a ∈ (metaComponent name S).attributes, checkAllNan a buf n m' = some true := by
  obtain ⟨m', h1, _, h3, _⟩ := set_nan_exact pad name S hb (off := 0) (size := n) (le_refl _) (by omega) (by omega) h
  exact ⟨m', h1, fun a ha => checkAllNan_true n fun i hi => h3 a ha i (by omega) (by omega)⟩

/-! ## Creating buffers -/

/-- **C56, new buffers (partial).** If the size of the buffer in bytes fits in 64 bits, the memory that is asked for has the number of bytes needed, rounded up to
the alignment, which is a power of two and a multiple of the alignment of the record. Missing: sizes that do not fit, for which it is false
(`create_buffer_too_small`), and failure of the allocation, which is not reported (`create_buffer_silent`). -/
theorem create_buffer_partial (alloc : Nat → Nat → Int) (h : Option Handle) (name : String) (S : Struct) {n : Nat}
    (hfit : n * (metaComponent name S).size + 8 ≤ 2 ^ 64) :
    ∃ bytes, createBuffer alloc h (some (metaComponent name S)) n = (alloc 8 bytes, h.map fun _ => {}) ∧ 8 ∣ bytes ∧
      n * (metaComponent name S).size ≤ bytes ∧ bytes < n * (metaComponent name S).size + 8 ∧ (metaComponent name S).alignment ∣ 8 := by
  have hal : (metaComponent name S).alignment = 1 ∨ (metaComponent name S).alignment = 4 ∨ (metaComponent name S).alignment = 8 := recordAlign_cases _
  have hmax : max (metaComponent name S).alignment 8 = 8 := by rcases hal with e | e | e <;> rw [e] <;> rfl
  refine ⟨roundUp (n * (metaComponent name S).size) 8, ?_, roundUp_dvd _ _, le_roundUp _ (by omega), roundUp_lt _ (by omega), ?_⟩
  · have hreq : request (metaComponent name S) n = (8, roundUp (n * (metaComponent name S).size) 8) := by
      unfold request
      rw [hmax]
      have hword : ∀ k : Nat, k < 2 ^ 64 → word k = k := fun k hk => by
        unfold word
        omega
      by_cases hz : (metaComponent name S).size = 0
      · rw [hz]
        simp only [Nat.cast_zero, Int.zero_mul, Nat.mul_zero]
        rfl
      · have hn : n < 2 ^ 64 := by
          have : n * 1 ≤ n * (metaComponent name S).size := Nat.mul_le_mul_left n (by omega)
          omega
        have e1 : word (((metaComponent name S).size : Int) * (word n : Nat)) = n * (metaComponent name S).size := by
          rw [hword n hn, ← Nat.cast_mul, Nat.mul_comm]
          exact hword _ (by omega)
        simp only [e1]
        have e2 : word (((n * (metaComponent name S).size : Nat) : Int) + (8 : Nat) - 1) = n * (metaComponent name S).size + 8 - 1 := by
          unfold word
          omega
        rw [e2]
        have hlt := roundUp_lt (n * (metaComponent name S).size) (a := 8) (by omega)
        have : (n * (metaComponent name S).size + 8 - 1) / 8 * 8 = roundUp (n * (metaComponent name S).size) 8 := rfl
        rw [this, hword _ (by omega)]
    unfold createBuffer
    dsimp only
    rw [hreq]
    cases h <;> rfl
  · rcases hal with e | e | e <;> rw [e] <;> decide

/-- The negation of the full statement: for `2 ^ 60` nodes the number of bytes wraps around and a buffer of zero bytes is created, without an error. -/
theorem create_buffer_too_small (alloc : Nat → Nat → Int) :
    createBuffer alloc (some {}) (some (metaComponent "node" Tables.NodeInput)) (2 ^ 60) = (alloc 8 0, some {}) ∧
      (metaComponent "node" Tables.NodeInput).size = 16 := by
  have : request (metaComponent "node" Tables.NodeInput) (2 ^ 60) = (8, 0) := by decide +kernel
  refine ⟨?_, by decide +kernel⟩
  unfold createBuffer
  dsimp only
  rw [this]
  rfl

/-- The negation of "`NULL` is returned with error information in the handle": if the allocation fails, there is no error. -/
theorem create_buffer_silent (h : Handle) (c : Component) (size : Int) : createBuffer (fun _ _ => 0) (some h) (some c) size = (0, some {}) := rfl

/-! ## Example -/

/-- A memory where everything up to address 4096 may be accessed and address `x` holds `x` modulo 256. -/
def exMem : Mem := ⟨fun x => UInt8.ofNat x.toNat, fun x => decide (0 < x ∧ x < 4096)⟩

/-- The hypotheses hold: three nodes at address 64, values of `u_rated` at 1024 with distance 16. -/
example : ∃ a ∈ (metaComponent "node" Tables.NodeInput).attributes, a.name = "u_rated" ∧
    IsBuffer exMem (metaComponent "node" Tables.NodeInput) 64 3 ∧ Meant a.ctype 16 16 ∧
    IsArray exMem a.ctype 1024 16 1 2 (metaComponent "node" Tables.NodeInput) 64 3 := by
  have hsize : (metaComponent "node" Tables.NodeInput).size = 16 := by decide +kernel
  have hal : (metaComponent "node" Tables.NodeInput).alignment = 8 := by decide +kernel
  refine ⟨⟨"u_rated", .double, 8, 16⟩, by decide +kernel, rfl, ⟨by decide, by rw [hal]; decide, fun x hx => ?_⟩, Or.inr ⟨by decide, rfl⟩,
    ⟨by decide, by decide, by decide, fun i h1 h2 x hx => ?_, fun i h1 h2 x hx hx' => ?_⟩⟩
  · rw [hsize] at hx
    obtain ⟨h1, h2⟩ := hx
    simp only [exMem, decide_eq_true_eq]
    omega
  · obtain ⟨h3, h4⟩ := hx
    simp only [exMem, decide_eq_true_eq]
    simp only [CType.size] at h4
    omega
  · rw [hsize] at hx'
    obtain ⟨h3, h4⟩ := hx
    obtain ⟨h5, h6⟩ := hx'
    omega

end PGM.Buffer
