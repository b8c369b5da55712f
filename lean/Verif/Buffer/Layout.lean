import Verif.Buffer.Model
import Mathlib.Data.List.Nodup
import Mathlib.Data.List.Pairwise
import Mathlib.Tactic.Linarith
import Mathlib.Tactic.Ring
import Mathlib.Tactic.NormNum

/-! # Layout of records -/

namespace PGM.Buffer

theorem CType.align_pos (t : CType) : 0 < t.align := by cases t <;> decide

theorem CType.size_pos (t : CType) : 0 < t.size := by cases t <;> decide

theorem CType.align_dvd_size (t : CType) : t.align ∣ t.size := by cases t <;> decide

theorem CType.align_dvd_eight (t : CType) : t.align ∣ 8 := by cases t <;> decide

/-- Alignments are powers of two up to eight. -/
theorem CType.align_cases (t : CType) : t.align = 1 ∨ t.align = 4 ∨ t.align = 8 := by cases t <;> decide

theorem roundUp_dvd (n a : Nat) : a ∣ roundUp n a := Dvd.intro_left _ rfl

theorem le_roundUp (n : Nat) {a : Nat} (ha : 0 < a) : n ≤ roundUp n a := by
  unfold roundUp
  have := Nat.div_add_mod (n + a - 1) a
  have h := Nat.mod_lt (n + a - 1) ha
  rw [Nat.mul_comm] at this
  omega

theorem roundUp_lt (n : Nat) {a : Nat} (ha : 0 < a) : roundUp n a < n + a := by
  unfold roundUp
  have := Nat.div_mul_le_self (n + a - 1) a
  omega

theorem place_bounds {pos : Nat} {l : List Member} {x : Member × Nat} (h : x ∈ place pos l) :
    pos ≤ x.2 ∧ x.2 + x.1.2.size ≤ ending pos l ∧ x.1.2.align ∣ x.2 ∧ x.1 ∈ l := by
  induction l generalizing pos with
  | nil => simp [place] at h
  | cons y l ih =>
    have hr := le_roundUp pos y.2.align_pos
    have hend : ∀ (l : List Member) (p : Nat), p ≤ ending p l := by
      intro l
      induction l with
      | nil => intro p; exact le_refl _
      | cons z l ih =>
        intro p
        have := le_roundUp p z.2.align_pos
        have := ih (roundUp p z.2.align + z.2.size)
        show p ≤ ending (roundUp p z.2.align + z.2.size) l
        omega
    rcases List.mem_cons.mp h with rfl | h
    · exact ⟨hr, hend l _, roundUp_dvd _ _, by simp⟩
    · obtain ⟨h1, h2, h3, h4⟩ := ih h
      exact ⟨by omega, h2, h3, by simp [h4]⟩

/-- The members follow each other. -/
theorem place_sorted (pos : Nat) (l : List Member) : (place pos l).Pairwise fun x y => x.2 + x.1.2.size ≤ y.2 := by
  induction l generalizing pos with
  | nil => exact List.Pairwise.nil
  | cons y l ih => exact List.pairwise_cons.mpr ⟨fun z hz => (place_bounds hz).1, ih _⟩

theorem place_names (pos : Nat) (l : List Member) : (place pos l).map (fun x => x.1) = l := by
  induction l generalizing pos with
  | nil => rfl
  | cons y l ih => simp [place, ih]

theorem recordAlign_cases (l : List Member) : recordAlign l = 1 ∨ recordAlign l = 4 ∨ recordAlign l = 8 := by
  induction l with
  | nil => exact Or.inl rfl
  | cons y l ih =>
    show max y.2.align (recordAlign l) = 1 ∨ max y.2.align (recordAlign l) = 4 ∨ max y.2.align (recordAlign l) = 8
    rcases y.2.align_cases with h | h | h <;> rcases ih with h' | h' | h' <;> rw [h, h'] <;> decide

theorem recordAlign_pos (l : List Member) : 0 < recordAlign l := by rcases recordAlign_cases l with h | h | h <;> omega

theorem align_le_record {l : List Member} {x : Member} (h : x ∈ l) : x.2.align ≤ recordAlign l := by
  induction l with
  | nil => cases h
  | cons y l ih =>
    show _ ≤ max y.2.align (recordAlign l)
    rcases List.mem_cons.mp h with rfl | h
    · exact le_max_left _ _
    · exact (ih h).trans (le_max_right _ _)

theorem align_dvd_record {l : List Member} {x : Member} (h : x ∈ l) : x.2.align ∣ recordAlign l := by
  have := align_le_record h
  rcases x.2.align_cases with h1 | h1 | h1 <;> rcases recordAlign_cases l with h2 | h2 | h2 <;> rw [h1, h2] at this ⊢ <;> first | omega | decide

theorem ending_le_size (l : List Member) : ending 0 l ≤ recordSize l := le_roundUp _ (recordAlign_pos l)

theorem recordAlign_dvd_size (l : List Member) : recordAlign l ∣ recordSize l := roundUp_dvd _ _

theorem place_append (pos : Nat) (l l' : List Member) : place pos (l ++ l') = place pos l ++ place (ending pos l) l' := by
  induction l generalizing pos with
  | nil => rfl
  | cons y l ih => simp [place, ending, ih]

theorem recordAlign_prefix {l l' : List Member} (h : l <+: l') : recordAlign l ∣ recordAlign l' := by
  have hle : recordAlign l ≤ recordAlign l' := by
    obtain ⟨t, rfl⟩ := h
    induction l with
    | nil => exact recordAlign_pos _
    | cons y l ih =>
      show max y.2.align (recordAlign l) ≤ max y.2.align (recordAlign (l ++ t))
      exact max_le_max le_rfl ih
  rcases recordAlign_cases l with h1 | h1 | h1 <;> rcases recordAlign_cases l' with h2 | h2 | h2 <;> rw [h1, h2] at hle ⊢ <;> first | omega | decide

/-! ## Attributes -/

theorem metaAttribute_some {l : List Member} {name : String} {a : Attr} (h : metaAttribute l name = some a) :
    ((name, a.ctype), a.offset) ∈ place 0 l ∧ a.name = name ∧ a.componentSize = recordSize l := by
  unfold metaAttribute memberAt at h
  obtain ⟨x, hx, rfl⟩ := Option.map_eq_some_iff.mp h
  have h1 := List.mem_of_find?_eq_some hx
  have h2 : x.1.1 = name := by simpa using List.find?_some hx
  refine ⟨?_, rfl, rfl⟩
  rw [← h2]
  exact h1

theorem metaAttribute_member {l : List Member} (hn : (l.map Prod.fst).Nodup) {x : Member × Nat} (h : x ∈ place 0 l) :
    metaAttribute l x.1.1 = some ⟨x.1.1, x.1.2, x.2, recordSize l⟩ := by
  unfold metaAttribute memberAt
  have hf : (place 0 l).find? (fun y => y.1.1 == x.1.1) = some x := by
    have hnd : ((place 0 l).map fun y => y.1.1).Nodup := by
      have : ((place 0 l).map fun y => y.1.1) = l.map Prod.fst := by
        rw [← congrArg (List.map Prod.fst) (place_names 0 l), List.map_map]
        rfl
      rw [this]
      exact hn
    cases hq : (place 0 l).find? (fun y => y.1.1 == x.1.1) with
    | none => exact absurd (List.find?_eq_none.mp hq x h) (by simp)
    | some y =>
      have h1 := List.mem_of_find?_eq_some hq
      have h2 : y.1.1 = x.1.1 := by simpa using List.find?_some hq
      rw [List.inj_on_of_nodup_map hnd h1 h h2]
  rw [hf]
  rfl

end PGM.Buffer
