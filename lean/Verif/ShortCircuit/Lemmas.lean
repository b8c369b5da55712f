import Verif.ShortCircuit.Spec
import Mathlib.Algebra.BigOperators.Group.Finset.Piecewise
import Mathlib.Tactic.Ring
import Mathlib.Tactic.SplitIfs
import Mathlib.Tactic.Abel
import Mathlib.Tactic.FieldSimp
import Mathlib.Tactic.LinearCombination
import Mathlib.Tactic.Set

/-!
# Short-circuit calculation: lemmas
-/

namespace PGM.ShortCircuit

open PGM.YBus PGM.Component PGM.PowerFlow PGM.Lu

variable {s : Symm}

/-! ## Sums over phases -/

theorem dot_apply (M : CM s) (x : CV s) (i : Fin s.phases) : dot s M x i = ∑ j, M i j * x j := rfl

theorem sum_one {n : Nat} (p : Fin n) (α : ℂ) (g : Fin n → ℂ) : (∑ j, if j = p then α else g j) = α + (∑ j, g j) - g p := by
  have : ∀ j, (if j = p then α else g j) = g j + if j = p then α - g p else 0 := by
    intro j; split_ifs with h
    · subst h; ring
    · ring
  simp only [this, Finset.sum_add_distrib, Finset.sum_ite_eq', Finset.mem_univ, if_true]
  ring

theorem sum_two {n : Nat} {p q : Fin n} (h : p ≠ q) (α β : ℂ) (g : Fin n → ℂ) :
    (∑ j, if j = p then α else if j = q then β else g j) = α + β + (∑ j, g j) - g p - g q := by
  rw [sum_one p α, sum_one q β, if_neg h]
  ring

/-! ## One column of the matrix -/

/-- Column of a bus after a fault without impedance. -/
noncomputable def solidCol (kind : Kind s.phases) (b : Nat) (col : Nat → CM s) (r : Nat) : CM s :=
  match kind with
  | .three => if r = b then Matrix.diagonal fun _ => -1 else 0
  | .single p => if r = b then setEntry p p (-1) (zeroCol p (col r)) else zeroCol p (col r)
  | .two p q =>
    if r = b then setEntry q q 1 (setEntry p q (-1) (zeroCol q (addCol p q (col r)))) else zeroCol q (addCol p q (col r))
  | .ground p q =>
    if r = b then setEntry q q (-1) (setEntry p p (-1) (zeroCol q (zeroCol p (col r)))) else zeroCol q (zeroCol p (col r))

/-- Right-hand side of the bus after a fault without impedance. -/
noncomputable def solidRhs (kind : Kind s.phases) (v : CV s) : CV s :=
  match kind with
  | .three => 0
  | .single p => Function.update v p 0
  | .two p q => Function.update (Function.update v q (v q + v p)) p 0
  | .ground p q => Function.update (Function.update v p 0) q 0

/-- Column of a bus after one fault with a finite admittance. -/
noncomputable def finStep (kind : Kind s.phases) (b : Nat) (y : ℂ) (col : Nat → CM s) (r : Nat) : CM s :=
  match kind with
  | .three => if r = b then col r + Matrix.diagonal fun _ => y else col r
  | .single p => if r = b then addEntry p p y (col r) else col r
  | .two p q =>
    if r = b then addEntry q p (-y) (addEntry p q (-y) (addEntry q q y (addEntry p p y (col r)))) else col r
  | .ground p q =>
    if r = b then addEntry q p y (setEntry q q 1 (setEntry p q (-1) (zeroCol q (addCol p q (col r))))) else zeroCol q (addCol p q (col r))

/-- Right-hand side of the bus after one fault with a finite admittance. -/
noncomputable def finRhsStep (kind : Kind s.phases) (v : CV s) : CV s :=
  match kind with
  | .ground p q => Function.update (Function.update v q (v q + v p)) p 0
  | _ => v

/-- Column of a bus after `n` faults with finite admittances of sum `y`. -/
noncomputable def finCol (kind : Kind s.phases) (b n : Nat) (y : ℂ) (col : Nat → CM s) (r : Nat) : CM s :=
  match kind with
  | .three => if r = b then col r + Matrix.diagonal fun _ => y else col r
  | .single p => if r = b then addEntry p p y (col r) else col r
  | .two p q =>
    if r = b then addEntry q p (-y) (addEntry p q (-y) (addEntry q q y (addEntry p p y (col r)))) else col r
  | .ground p q =>
    fun i j =>
      if n = 0 then col r i j
      else if j = p then col r i p + col r i q + (if r = b then (if i = p then -((n : ℂ) - 1) else if i = q then (n : ℂ) - 1 + y else 0) else 0)
      else if j = q then (if r = b then (if i = p then -1 else if i = q then 1 else 0) else 0)
      else col r i j

/-- Right-hand side of the bus after `n` faults with finite admittances. -/
noncomputable def finRhs (kind : Kind s.phases) (n : Nat) (v : CV s) : CV s :=
  match kind with
  | .ground p q => if n = 0 then v else Function.update (Function.update v q (v q + v p)) p 0
  | _ => v

/-- The two faulted phases are different. -/
def Kind.Proper {n : Nat} : Kind n → Prop
  | .two p q => p ≠ q
  | .ground p q => p ≠ q
  | _ => True

theorem finCol_zero (kind : Kind s.phases) (b : Nat) (col : Nat → CM s) : finCol kind b 0 0 col = col := by
  funext r i j
  cases kind with
  | three => simp [finCol]
  | single p => by_cases hr : r = b <;> simp [finCol, addEntry, hr]
  | two p q => by_cases hr : r = b <;> simp [finCol, addEntry, hr]
  | ground p q => simp [finCol]

theorem finRhs_zero (kind : Kind s.phases) (v : CV s) : finRhs kind 0 v = v := by
  cases kind <;> simp [finRhs]

theorem finStep_finCol {kind : Kind s.phases} (hk : kind.Proper) (b n : Nat) (y z : ℂ) (hy : n = 0 → y = 0) (col : Nat → CM s) :
    finStep kind b z (finCol kind b n y col) = finCol kind b (n + 1) (y + z) col := by
  funext r i j
  cases kind with
  | three =>
    simp only [finStep, finCol]
    by_cases hr : r = b
    · simp only [if_pos hr, Matrix.add_apply, Matrix.diagonal_apply]; split_ifs <;> ring
    · simp only [if_neg hr]
  | single p =>
    simp only [finStep, finCol]
    by_cases hr : r = b
    · simp only [if_pos hr, addEntry]; split_ifs <;> ring
    · simp only [if_neg hr]
  | two p q =>
    simp only [finStep, finCol]
    by_cases hr : r = b
    · simp only [if_pos hr, addEntry]; split_ifs <;> ring
    · simp only [if_neg hr]
  | ground p q =>
    have hpq : p ≠ q := hk
    have hqp : q ≠ p := hpq.symm
    simp only [finStep, finCol, Nat.succ_ne_zero, if_false]
    have hcast : ((n + 1 : ℕ) : ℂ) = n + 1 := by push_cast; ring
    rw [hcast]
    by_cases hn : n = 0
    · have h0 := hy hn
      subst h0
      have hn0 : (n : ℂ) = 0 := by rw [hn]; simp
      simp only [if_pos hn, hn0]
      by_cases hr : r = b
      · simp only [if_pos hr, addEntry, setEntry, zeroCol, addCol]
        by_cases hjp : j = p
        · subst hjp
          by_cases hiq : i = q
          · subst hiq; simp [hpq, hqp]
          · simp [hpq, hqp, hiq]
        · by_cases hjq : j = q
          · subst hjq
            by_cases hiq : i = j
            · subst hiq; simp [hpq, hqp]
            · simp [hpq, hqp, hiq]
          · simp [hjp, hjq]
      · simp only [if_neg hr, zeroCol, addCol]
        by_cases hjp : j = p
        · subst hjp; simp [hpq]
        · by_cases hjq : j = q
          · subst hjq; simp [hqp]
          · simp [hjp, hjq]
    · simp only [if_neg hn]
      by_cases hr : r = b
      · simp only [if_pos hr, addEntry, setEntry, zeroCol, addCol]
        by_cases hjp : j = p
        · subst hjp
          by_cases hiq : i = q
          · subst hiq; simp [hpq, hqp]; ring
          · by_cases hip : i = j
            · subst hip; simp [hpq, hqp]; ring
            · simp [hpq, hqp, hiq, hip]
        · by_cases hjq : j = q
          · subst hjq
            by_cases hiq : i = j
            · subst hiq; simp [hpq, hqp]
            · by_cases hip : i = p
              · subst hip; simp [hpq, hqp]
              · simp [hqp, hiq, hip]
          · simp [hjp, hjq]
      · simp only [if_neg hr, zeroCol, addCol]
        by_cases hjp : j = p
        · subst hjp; simp [hpq, hqp]
        · by_cases hjq : j = q
          · subst hjq; simp [hqp]
          · simp [hjp, hjq]

theorem finRhsStep_finRhs {kind : Kind s.phases} (hk : kind.Proper) (n : Nat) (v : CV s) :
    finRhsStep kind (finRhs kind n v) = finRhs kind (n + 1) v := by
  cases kind with
  | ground p q =>
    have hpq : p ≠ q := hk
    simp only [finRhsStep, finRhs, Nat.succ_ne_zero, if_false]
    by_cases hn : n = 0
    · simp only [if_pos hn]
    · simp only [if_neg hn]
      funext i
      by_cases hip : i = p
      · subst hip; simp
      · by_cases hiq : i = q
        · subst hiq; simp [hip]
        · simp [hip, hiq]
  | _ => rfl

theorem solid_finCol {kind : Kind s.phases} (hk : kind.Proper) (b n : Nat) (y : ℂ) (col : Nat → CM s) :
    solidCol kind b (finCol kind b n y col) = solidCol kind b col := by
  funext r i j
  cases kind with
  | three => rfl
  | single p =>
    simp only [solidCol, finCol]
    by_cases hr : r = b
    · simp only [if_pos hr, setEntry, zeroCol, addEntry]
      split_ifs <;> simp_all
    · simp only [if_neg hr]
  | two p q =>
    have hpq : p ≠ q := hk
    have hqp : q ≠ p := hpq.symm
    simp only [solidCol, finCol]
    by_cases hr : r = b
    · simp only [if_pos hr, setEntry, zeroCol, addEntry, addCol]
      by_cases hjp : j = p
      · subst hjp
        by_cases hiq : i = q
        · subst hiq; simp [hpq, hqp]; ring
        · by_cases hip : i = j
          · subst hip; simp [hpq, hqp]; ring
          · simp [hpq, hqp, hiq, hip]
      · by_cases hjq : j = q
        · subst hjq; simp
        · simp [hjp, hjq]
    · simp only [if_neg hr]
  | ground p q =>
    simp only [solidCol, finCol]
    by_cases hn : n = 0
    · simp only [if_pos hn]
    · by_cases hr : r = b
      · simp only [if_pos hr, if_neg hn, setEntry, zeroCol]
        by_cases hjp : j = p
        · simp [hjp]
        · by_cases hjq : j = q
          · simp [hjq]
          · simp [hjp, hjq]
      · simp only [if_neg hr, if_neg hn, zeroCol]
        by_cases hjp : j = p
        · simp [hjp]
        · by_cases hjq : j = q
          · simp [hjq]
          · simp [hjp, hjq]

theorem solid_finRhs {kind : Kind s.phases} (hk : kind.Proper) (n : Nat) (v : CV s) : solidRhs kind (finRhs kind n v) = solidRhs kind v := by
  cases kind with
  | ground p q =>
    have hpq : p ≠ q := hk
    simp only [solidRhs, finRhs]
    by_cases hn : n = 0
    · simp only [if_pos hn]
    · simp only [if_neg hn]
      funext i
      by_cases hip : i = p
      · subst hip; simp [hpq]
      · by_cases hiq : i = q
        · subst hiq; simp
        · simp [hip, hiq]
  | _ => rfl

/-! ## Voltages and fault currents from a solution -/

/-- The reported voltages of a bus. -/
noncomputable def busVoltage (kind : Kind s.phases) (solid : Bool) (n : Nat) (x : CV s) : CV s :=
  if solid then
    match kind with
    | .three => 0
    | .single p => Function.update x p 0
    | .two p q => Function.update x q (x p)
    | .ground p q => Function.update (Function.update x p 0) q 0
  else
    match kind with
    | .ground p q => if n = 0 then x else Function.update x q (x p)
    | _ => x

/-- The total current into the faults of a bus, from the solution `x` of the equations and the Norton current `c` of the sources. -/
noncomputable def busFault (kind : Kind s.phases) (solid : Bool) (n : Nat) (y : ℂ) (x c : CV s) : CV s :=
  if solid then
    match kind with
    | .three => fun p => c p - x p
    | .single p => fun i => if i = p then c p - x p else 0
    | .two p q => fun i => if i = p then c p - x q else if i = q then x q - c p else 0
    | .ground p q => fun i => if i = p then c p - x p else if i = q then c q - x q else 0
  else
    match kind with
    | .three => fun p => y * x p
    | .single p => fun i => if i = p then y * x p else 0
    | .two p q => fun i => if i = p then y * (x p - x q) else if i = q then y * (x q - x p) else 0
    | .ground p q =>
      if n = 0 then 0
      else fun i => if i = p then c p - x q - ((n : ℂ) - 1) * x p else if i = q then x q + ((n : ℂ) - 1 + y) * x p - c p else 0

theorem solid_off (kind : Kind s.phases) (hk : kind.Proper) (n : Nat) {b r : Nat} (hr : r ≠ b) (col : Nat → CM s) (x : CV s) :
    dot s (solidCol kind b col r) x = dot s (col r) (busVoltage kind true n x) := by
  funext i
  rw [dot_apply, dot_apply]
  cases kind with
  | three => simp [solidCol, busVoltage, hr]
  | single p =>
    simp only [solidCol, busVoltage, if_neg hr, if_true, zeroCol, Function.update_apply]
    refine Finset.sum_congr rfl fun j _ => ?_
    split_ifs <;> ring
  | two p q =>
    have hpq : p ≠ q := hk
    simp only [solidCol, busVoltage, if_neg hr, if_true, zeroCol, addCol, Function.update_apply]
    have h1 : ∀ j, ((if j = q then 0 else if j = p then col r i j + col r i q else col r i j) * x j) =
        if j = p then (col r i p + col r i q) * x p else if j = q then 0 else col r i j * x j := by
      intro j
      by_cases hjp : j = p
      · subst hjp; simp [hpq]
      · by_cases hjq : j = q
        · subst hjq; simp [hjp]
        · simp [hjp, hjq]
    have h2 : ∀ j, (col r i j * if j = q then x p else x j) =
        if j = p then col r i p * x p else if j = q then col r i q * x p else col r i j * x j := by
      intro j
      by_cases hjp : j = p
      · subst hjp; simp [hpq]
      · by_cases hjq : j = q
        · subst hjq; simp [hjp]
        · simp [hjp, hjq]
    simp only [h1, h2, sum_two hpq]
    ring
  | ground p q =>
    simp only [solidCol, busVoltage, if_neg hr, if_true, zeroCol, Function.update_apply]
    refine Finset.sum_congr rfl fun j _ => ?_
    split_ifs <;> ring

theorem solid_diag (kind : Kind s.phases) (hk : kind.Proper) (n : Nat) (b : Nat) (y : ℂ) (col : Nat → CM s) (x c : CV s) :
    dot s (solidCol kind b col b) x - solidRhs kind c =
      dot s (col b) (busVoltage kind true n x) - c + busFault kind true n y x c := by
  funext i
  simp only [Pi.sub_apply, Pi.add_apply]
  rw [dot_apply, dot_apply]
  cases kind with
  | three =>
    simp [solidCol, busVoltage, solidRhs, busFault, Matrix.diagonal_apply]
    ring
  | single p =>
    simp only [solidCol, busVoltage, solidRhs, busFault, if_true, zeroCol, setEntry, Function.update_apply]
    have h1 : ∀ j, ((if i = p ∧ j = p then -1 else if j = p then 0 else col b i j) * x j) =
        if j = p then (if i = p then -x p else 0) else col b i j * x j := by
      intro j
      by_cases hjp : j = p
      · subst hjp; by_cases hi : i = j <;> simp [hi]
      · simp [hjp]
    have h2 : ∀ j, (col b i j * if j = p then 0 else x j) = if j = p then 0 else col b i j * x j := by
      intro j; by_cases hjp : j = p <;> simp [hjp]
    simp only [h1, h2, sum_one]
    by_cases hi : i = p
    · subst hi; simp; ring
    · simp [hi]
  | two p q =>
    have hpq : p ≠ q := hk
    have hqp : q ≠ p := hpq.symm
    simp only [solidCol, busVoltage, solidRhs, busFault, if_true, zeroCol, addCol, setEntry, Function.update_apply]
    have h1 : ∀ j, ((if i = q ∧ j = q then 1 else if i = p ∧ j = q then -1 else if j = q then 0 else
          if j = p then col b i j + col b i q else col b i j) * x j) =
        if j = p then (col b i p + col b i q) * x p else if j = q then (if i = q then x q else if i = p then -x q else 0)
          else col b i j * x j := by
      intro j
      by_cases hjp : j = p
      · subst hjp; simp [hpq]
      · by_cases hjq : j = q
        · subst hjq
          by_cases hi : i = j
          · subst hi; simp [hjp]
          · by_cases hip : i = p
            · subst hip; simp [hi, hqp]
            · simp [hi, hip, hjp]
        · simp [hjp, hjq]
    have h2 : ∀ j, (col b i j * if j = q then x p else x j) =
        if j = p then col b i p * x p else if j = q then col b i q * x p else col b i j * x j := by
      intro j
      by_cases hjp : j = p
      · subst hjp; simp [hpq]
      · by_cases hjq : j = q
        · subst hjq; simp [hjp]
        · simp [hjp, hjq]
    simp only [h1, h2, sum_two hpq]
    by_cases hip : i = p
    · subst hip; simp [hpq]; ring
    · by_cases hiq : i = q
      · subst hiq; simp [hqp]; ring
      · simp [hip, hiq]; ring
  | ground p q =>
    have hpq : p ≠ q := hk
    have hqp : q ≠ p := hpq.symm
    simp only [solidCol, busVoltage, solidRhs, busFault, if_true, zeroCol, setEntry, Function.update_apply]
    have h1 : ∀ j, ((if i = q ∧ j = q then -1 else if i = p ∧ j = p then -1 else if j = q then 0 else
          if j = p then 0 else col b i j) * x j) =
        if j = p then (if i = p then -x p else 0) else if j = q then (if i = q then -x q else 0) else col b i j * x j := by
      intro j
      by_cases hjp : j = p
      · subst hjp; by_cases hi : i = j <;> simp [hi, hpq]
      · by_cases hjq : j = q
        · subst hjq
          by_cases hi : i = j <;> simp [hi, hjp]
        · simp [hjp, hjq]
    have h2 : ∀ j, (col b i j * if j = q then 0 else if j = p then 0 else x j) =
        if j = p then 0 else if j = q then 0 else col b i j * x j := by
      intro j
      by_cases hjp : j = p
      · simp [hjp]
      · by_cases hjq : j = q
        · simp [hjq]
        · simp [hjp, hjq]
    simp only [h1, h2, sum_two hpq]
    by_cases hip : i = p
    · subst hip; simp [hpq]; ring
    · by_cases hiq : i = q
      · subst hiq; simp [hqp]; ring
      · simp [hip, hiq]

theorem fin_off (kind : Kind s.phases) (hk : kind.Proper) (n : Nat) (y : ℂ) {b r : Nat} (hr : r ≠ b) (col : Nat → CM s) (x : CV s) :
    dot s (finCol kind b n y col r) x = dot s (col r) (busVoltage kind false n x) := by
  cases kind with
  | three => simp [finCol, busVoltage, hr]
  | single p => simp [finCol, busVoltage, hr]
  | two p q => simp [finCol, busVoltage, hr]
  | ground p q =>
    have hpq : p ≠ q := hk
    by_cases hn : n = 0
    · simp [finCol, busVoltage, hn]
    · funext i
      rw [dot_apply, dot_apply]
      simp only [finCol, busVoltage, if_neg hr, if_neg hn, Bool.false_eq_true, if_false, Function.update_apply]
      have h1 : ∀ j, ((if j = p then col r i p + col r i q + 0 else if j = q then 0 else col r i j) * x j) =
          if j = p then (col r i p + col r i q) * x p else if j = q then 0 else col r i j * x j := by
        intro j
        by_cases hjp : j = p
        · subst hjp; simp
        · by_cases hjq : j = q
          · subst hjq; simp [hjp]
          · simp [hjp, hjq]
      have h2 : ∀ j, (col r i j * if j = q then x p else x j) =
          if j = p then col r i p * x p else if j = q then col r i q * x p else col r i j * x j := by
        intro j
        by_cases hjp : j = p
        · subst hjp; simp [hpq]
        · by_cases hjq : j = q
          · subst hjq; simp [hjp]
          · simp [hjp, hjq]
      simp only [h1, h2, sum_two hpq]
      ring

theorem fin_diag (kind : Kind s.phases) (hk : kind.Proper) (n : Nat) (b : Nat) (y : ℂ) (col : Nat → CM s) (x c : CV s) :
    dot s (finCol kind b n y col b) x - finRhs kind n c =
      dot s (col b) (busVoltage kind false n x) - c + busFault kind false n y x c := by
  funext i
  simp only [Pi.sub_apply, Pi.add_apply]
  rw [dot_apply, dot_apply]
  cases kind with
  | three =>
    simp only [finCol, busVoltage, finRhs, busFault, if_true, Bool.false_eq_true, if_false, Matrix.add_apply, Matrix.diagonal_apply,
      add_mul, Finset.sum_add_distrib, ite_mul, zero_mul, Finset.sum_ite_eq, Finset.mem_univ]
    ring
  | single p =>
    simp only [finCol, busVoltage, finRhs, busFault, if_true, Bool.false_eq_true, if_false, addEntry]
    have h1 : ∀ j, ((if i = p ∧ j = p then col b i j + y else col b i j) * x j) =
        if j = p then (col b i p + if i = p then y else 0) * x p else col b i j * x j := by
      intro j
      by_cases hjp : j = p
      · subst hjp; by_cases hi : i = j <;> simp [hi]
      · simp [hjp]
    simp only [h1, sum_one]
    by_cases hi : i = p
    · subst hi; simp; ring
    · simp [hi]
  | two p q =>
    have hpq : p ≠ q := hk
    have hqp : q ≠ p := hpq.symm
    simp only [finCol, busVoltage, finRhs, busFault, if_true, Bool.false_eq_true, if_false, addEntry]
    have h1 : ∀ j, ((if i = q ∧ j = p then (if i = p ∧ j = q then (if i = q ∧ j = q then (if i = p ∧ j = p then col b i j + y else col b i j) + y else
        (if i = p ∧ j = p then col b i j + y else col b i j)) + -y else
        (if i = q ∧ j = q then (if i = p ∧ j = p then col b i j + y else col b i j) + y else
        (if i = p ∧ j = p then col b i j + y else col b i j))) + -y else
        (if i = p ∧ j = q then (if i = q ∧ j = q then (if i = p ∧ j = p then col b i j + y else col b i j) + y else
        (if i = p ∧ j = p then col b i j + y else col b i j)) + -y else
        (if i = q ∧ j = q then (if i = p ∧ j = p then col b i j + y else col b i j) + y else
        (if i = p ∧ j = p then col b i j + y else col b i j)))) * x j) =
        if j = p then (col b i p + (if i = p then y else if i = q then -y else 0)) * x p else
        if j = q then (col b i q + (if i = p then -y else if i = q then y else 0)) * x q else col b i j * x j := by
      intro j
      by_cases hjp : j = p
      · subst hjp
        by_cases hi : i = j
        · subst hi; simp [hpq]
        · by_cases hiq : i = q
          · subst hiq; simp [hqp, hpq]
          · simp [hi, hiq]
      · by_cases hjq : j = q
        · subst hjq
          by_cases hi : i = j
          · subst hi; simp [hqp]
          · by_cases hip : i = p
            · subst hip; simp [hpq, hqp]
            · simp [hi, hip, hjp]
        · simp [hjp, hjq]
    simp only [h1, sum_two hpq]
    by_cases hip : i = p
    · subst hip; simp [hpq]; ring
    · by_cases hiq : i = q
      · subst hiq; simp [hqp]; ring
      · simp [hip, hiq]; ring
  | ground p q =>
    have hpq : p ≠ q := hk
    have hqp : q ≠ p := hpq.symm
    by_cases hn : n = 0
    · simp [finCol, busVoltage, finRhs, busFault, hn]
    · simp only [finCol, busVoltage, finRhs, busFault, if_true, Bool.false_eq_true, if_false, if_neg hn, Function.update_apply]
      have h1 : ∀ j, ((if j = p then col b i p + col b i q + (if i = p then -((n : ℂ) - 1) else if i = q then (n : ℂ) - 1 + y else 0)
          else if j = q then (if i = p then -1 else if i = q then 1 else 0) else col b i j) * x j) =
          if j = p then (col b i p + col b i q + (if i = p then -((n : ℂ) - 1) else if i = q then (n : ℂ) - 1 + y else 0)) * x p
          else if j = q then (if i = p then -1 else if i = q then 1 else 0) * x q else col b i j * x j := by
        intro j
        by_cases hjp : j = p
        · subst hjp; simp
        · by_cases hjq : j = q
          · subst hjq; simp [hjp]
          · simp [hjp, hjq]
      have h2 : ∀ j, (col b i j * if j = q then x p else x j) =
          if j = p then col b i p * x p else if j = q then col b i q * x p else col b i j * x j := by
        intro j
        by_cases hjp : j = p
        · subst hjp; simp [hpq]
        · by_cases hjq : j = q
          · subst hjq; simp [hjp]
          · simp [hjp, hjq]
      simp only [h1, h2, sum_two hpq]
      by_cases hip : i = p
      · subst hip; simp [hpq]; ring
      · by_cases hiq : i = q
        · subst hiq; simp [hqp]; ring
        · simp [hip, hiq]; ring

end PGM.ShortCircuit
