import Verif.Lu.Props

/-!
# C16: cases that meet the hypotheses

A pattern with three rows (two buses that are both connected to a third one), a regular and a singular matrix on it, and a regular matrix that
the factorisation rejects.
-/

namespace PGM.Lu

open PGM.YBus (IsCsr EntryAt)

/-- The positions of the example. -/
def exPos : List (Nat × Nat) := [(0, 0), (0, 2), (1, 1), (1, 2), (2, 0), (2, 1), (2, 2)]

def exPattern : Pattern := ⟨[0, 2, 4, 7], [0, 2, 1, 2, 0, 1, 2], [0, 2, 6]⟩

theorem exEntry (r c k : Nat) : EntryAt exPattern.rowIndptr exPattern.colIndices r c k ↔ exPos[k]? = some (r, c) :=
  YBus.entryAt_iff (n := 3) (N := exPos) (by unfold YBus.Before exPos; decide) (by decide) (by decide) (by decide) r c k

theorem exPattern_valid : exPattern.Valid 3 (fun r c => (r, c) ∈ exPos) where
  csr := YBus.csr_of (n := 3) (N := exPos) (ip := [0, 2, 4, 7]) (by unfold YBus.Before exPos; decide) (by decide) (by decide) (by decide) _ (fun _ _ _ => Iff.rfl)
  diagLen := rfl
  diag := by
    intro r hr
    have : r = 0 ∨ r = 1 ∨ r = 2 := by omega
    rcases this with rfl | rfl | rfl
    · exact ⟨0, rfl, (exEntry _ _ _).mpr rfl⟩
    · exact ⟨2, rfl, (exEntry _ _ _).mpr rfl⟩
    · exact ⟨6, rfl, (exEntry _ _ _).mpr rfl⟩
  range := by
    intro r c _ h
    have : ∀ q ∈ exPos, q.2 < 3 := by decide
    exact this _ h
  symm := by
    intro r c _ h
    have : ∀ q ∈ exPos, (q.2, q.1) ∈ exPos := by decide
    exact this _ h
  closed := by
    intro i j k hi hj hk hk' h1 h2
    have : ∀ q ∈ exPos, ∀ q' ∈ exPos, q.2 < q.1 → q.2 < q'.2 → q.2 = q'.1 → (q.1, q'.2) ∈ exPos := by decide
    exact this _ h1 _ h2 hk hk' rfl

/-- The data of a matrix. -/
def exData {n : Nat} (A : Nat → Nat → Blk ℝ n) : List (Blk ℝ n) := exPos.map fun q => A q.1 q.2

theorem exData_holds {n : Nat} (A : Nat → Nat → Blk ℝ n) (h : ∀ r c, (r, c) ∉ exPos → A r c = 0) :
    Holds exPattern 3 (fun r c => (r, c) ∈ exPos) (exData A) A where
  len := rfl
  entry := by
    intro r c i _ hi
    rw [exEntry] at hi
    unfold exData
    rw [List.getElem?_map, hi]
    rfl
  zero := fun r c _ _ hn => h r c hn

/-- A matrix on the pattern with two given entries. -/
def exMat (d₀ d₁ d₂ : ℝ) (r c : Nat) : Blk ℝ 1 := fun _ _ =>
  if (r, c) = (0, 0) then d₀ else if (r, c) = (1, 1) then d₁ else if (r, c) = (2, 2) then d₂ else if (r, c) ∈ exPos then 1 else 0

theorem exMat_zero (d₀ d₁ d₂ : ℝ) : ∀ r c, (r, c) ∉ exPos → exMat d₀ d₁ d₂ r c = 0 := by
  intro r c h
  funext s t
  have h0 : (r, c) ≠ (0, 0) := fun e => h (by rw [e]; decide)
  have h1 : (r, c) ≠ (1, 1) := fun e => h (by rw [e]; decide)
  have h2 : (r, c) ≠ (2, 2) := fun e => h (by rw [e]; decide)
  unfold exMat
  rw [if_neg h0, if_neg h1, if_neg h2, if_neg h]
  rfl

def exPerms : List (BlockPerm 1) := List.replicate 3 ⟨1, 1⟩

/-- A regular matrix is factorised: the hypotheses of `solve_exact`, `factorizeAndSolve_exact`, `solve_perturbed` can be met. -/
theorem exMat_accepted : ∃ f, prefactorize exPattern false (exData (exMat 2 2 3)) exPerms = .ok f := by
  rw [scalar_accepted_iff exPattern_valid (exMat 2 2 3) _ exPerms (exData_holds _ (exMat_zero 2 2 3)) rfl]
  intro k hk z hz c hc
  have : k = 0 ∨ k = 1 ∨ k = 2 ∨ k = 3 := by omega
  rcases this with rfl | rfl | rfl | rfl
  · omega
  · have h0 := hz 0 (by omega)
    simp [Finset.sum_range_succ, exMat] at h0
    have : c = 0 := by omega
    subst this
    exact h0
  · have h0 := hz 0 (by omega)
    have h1 := hz 1 (by omega)
    simp [Finset.sum_range_succ, exMat, exPos] at h0 h1
    have : c = 0 ∨ c = 1 := by omega
    rcases this with rfl | rfl <;> assumption
  · have h0 := hz 0 (by omega)
    have h1 := hz 1 (by omega)
    have h2 := hz 2 (by omega)
    simp [Finset.sum_range_succ, exMat, exPos] at h0 h1 h2
    have : c = 0 ∨ c = 1 ∨ c = 2 := by omega
    rcases this with rfl | rfl | rfl <;> linarith

/-- The whole call on a regular matrix returns the solution. -/
example : ∃ x, factorizeAndSolve exPattern false (exData (exMat 2 2 3)) exPerms [fun _ => 3, fun _ => 3, fun _ => 5] = .ok x ∧
    SolvesSystem 3 (exMat 2 2 3) x [fun _ => 3, fun _ => 3, fun _ => 5] := by
  have hh := exData_holds _ (exMat_zero 2 2 3)
  rcases solve_total exPattern_valid false _ _ exPerms hh rfl [fun _ => 3, fun _ => 3, fun _ => 5] rfl with h | ⟨x, h, _⟩
  · exfalso
    obtain ⟨f, hf⟩ := exMat_accepted
    unfold factorizeAndSolve at h
    rw [hf] at h
    simp only [bind, Except.bind] at h
    rw [prefactorize_flag exPattern_valid _ _ exPerms hh.zero hh.rep rfl f hf, if_neg (by simp)] at h
    obtain ⟨_, ⟨y, hy, _⟩, _⟩ := solve_exact exPattern_valid _ _ exPerms hh rfl f hf [fun _ => 3, fun _ => 3, fun _ => 5]
      [fun _ => 3, fun _ => 3, fun _ => 5] rfl rfl
    rw [hy] at h
    exact absurd h (by simp)
  · exact ⟨x, h, factorizeAndSolve_exact exPattern_valid _ _ exPerms hh rfl _ x rfl h⟩

/-- A singular matrix: the hypotheses of `singular_reported` can be met. -/
example : prefactorize exPattern false (exData (exMat 1 1 2)) exPerms = .error .singular := by
  refine singular_reported exPattern_valid (exMat 1 1 2) _ exPerms (exData_holds _ (exMat_zero 1 1 2)) rfl
    [fun _ => 1, fun _ => 1, fun _ => -1] ⟨rfl, ?_⟩ ?_
  · intro r hr t
    have : r = 0 ∨ r = 1 ∨ r = 2 := by omega
    rcases this with rfl | rfl | rfl <;> simp [product, Finset.sum_range_succ, exMat, exPos, at'] <;> norm_num
  · intro e
    have := congrFun (List.cons.inj e).1 0
    simp at this

/-- **C16, no pivoting between rows.** A regular matrix can be reported as singular: the one here maps no vector but zero to zero, but its
first diagonal entry is zero. -/
theorem regular_rejected : (∀ y, SolvesSystem 3 (exMat 0 1 0) y (List.replicate 3 0) → y = List.replicate 3 0) ∧
    prefactorize exPattern false (exData (exMat 0 1 0)) exPerms = .error .singular := by
  constructor
  · intro y hy
    have h0 := hy.2 0 (by omega) 0
    have h1 := hy.2 1 (by omega) 0
    have h2 := hy.2 2 (by omega) 0
    simp [product, Finset.sum_range_succ, exMat, exPos] at h0 h1 h2
    obtain ⟨a, b, c, rfl⟩ := List.length_eq_three.mp hy.1
    simp [at', List.replicate] at h0 h1 h2
    have ha : a = 0 := by funext t; rw [Subsingleton.elim t 0]; simp only [Pi.zero_apply]; linarith
    have hb : b = 0 := by funext t; rw [Subsingleton.elim t 0]; simp only [Pi.zero_apply]; linarith
    have hc : c = 0 := by funext t; rw [Subsingleton.elim t 0]; simp only [Pi.zero_apply]; linarith
    rw [ha, hb, hc]
    rfl
  · have hh := exData_holds _ (exMat_zero 0 1 0)
    rcases prefactorize_good exPattern_valid false _ _ exPerms hh.zero hh.rep rfl with h | ⟨f, h, _⟩
    · exact h
    · exfalso
      have := (scalar_accepted_iff exPattern_valid (exMat 0 1 0) _ exPerms hh rfl).mp ⟨f, h⟩ 1 (by omega) (fun _ => 1) (fun r hr => by
        have : r = 0 := by omega
        subst this
        simp [exMat]) 0 (by omega)
      norm_num at this

end PGM.Lu
