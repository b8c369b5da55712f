import Verif.ShortCircuit.Results
import Mathlib.Tactic.FinCases

/-!
# Short-circuit calculation: the laws of the faults for the cases of the solver
-/

namespace PGM.ShortCircuit

open PGM.YBus PGM.Component PGM.PowerFlow PGM.Lu

variable {s : Symm}

/-- The law of a fault by the case of the solver. -/
def KLaw (kind : Kind s.phases) (y : Option ℂ) (u i : CV s) : Prop :=
  match kind with
  | .three => (y = none → ∀ p, u p = 0) ∧ ∀ z, y = some z → ∀ p, i p = z * u p
  | .single p => (∀ r, r ≠ p → i r = 0) ∧ (y = none → u p = 0) ∧ ∀ z, y = some z → i p = z * u p
  | .two p q => (∀ r, r ≠ p → r ≠ q → i r = 0) ∧ i p + i q = 0 ∧ (y = none → u p = u q) ∧ ∀ z, y = some z → i p = z * (u p - u q)
  | .ground p q =>
    (∀ r, r ≠ p → r ≠ q → i r = 0) ∧ (y = none → u p = 0 ∧ u q = 0) ∧ ∀ z, y = some z → u p = u q ∧ i p + i q = z * u p

theorem meaningful_cases {t p : Int} (h : Meaningful t p) :
    (t = 0 ∧ p = 0) ∨ (t = 1 ∧ (p = 1 ∨ p = 2 ∨ p = 3)) ∨ (t = 2 ∧ (p = 4 ∨ p = 5 ∨ p = 6)) ∨ (t = 3 ∧ (p = 4 ∨ p = 5 ∨ p = 6)) := by
  obtain ⟨n, l, h1, h2, h3⟩ := h
  unfold phaseCount at h1
  unfold phases at h2
  split at h1 <;> split at h2 <;> simp_all <;> (subst h1; subst h2; simp at h3)

theorem law_three (y : Option ℂ) (u i : CV s) (h : KLaw .three y u i) : FaultLaw 0 0 y u i := by
  refine ⟨fun r hs hr => ?_, fun _ => ?_, fun h => absurd h (by decide), fun h => absurd h (by decide), fun h => absurd h (by decide)⟩
  · exfalso
    refine hr _ rfl ?_
    subst hs
    fin_cases r <;> simp
  · cases y with
    | none => exact h.1 rfl
    | some z => exact h.2 z rfl

theorem law_single {phase : Int} (p : Fin 3) (hp : phases phase = some [p.val]) (y : Option ℂ) (u i : CV .asym) (h : KLaw (s := .asym) (.single p) y u i) :
    FaultLaw (s := .asym) 1 phase y u i := by
  refine ⟨fun r hs hr => ?_, fun h => absurd h (by decide), fun _ p' hp' => ?_, fun h => absurd h (by decide), fun h => absurd h (by decide)⟩
  · refine h.1 r fun e => hr _ hp ?_
    subst e; simp
  · rw [hp] at hp'
    have e : p = p' := by
      injection hp' with hp'
      injection hp' with hp'
      exact Fin.ext hp'
    subst e
    cases y with
    | none => exact h.2.1 rfl
    | some z => exact h.2.2 z rfl

theorem law_two {phase : Int} (p q : Fin 3) (hp : phases phase = some [p.val, q.val]) (y : Option ℂ) (u i : CV .asym)
    (h : KLaw (s := .asym) (.two p q) y u i) : FaultLaw (s := .asym) 2 phase y u i := by
  refine ⟨fun r hs hr => ?_, fun h => absurd h (by decide), fun h => absurd h (by decide), fun _ p' q' hp' => ?_, fun h => absurd h (by decide)⟩
  · refine h.1 r (fun e => hr _ hp ?_) (fun e => hr _ hp ?_)
    · subst e; simp
    · subst e; simp
  · rw [hp] at hp'
    injection hp' with hp'
    injection hp' with h1 h2
    injection h2 with h2
    obtain rfl : p = p' := Fin.ext h1
    obtain rfl : q = q' := Fin.ext h2
    refine ⟨h.2.1, ?_⟩
    cases y with
    | none => exact h.2.2.1 rfl
    | some z => exact h.2.2.2 z rfl

theorem law_ground {phase : Int} (p q : Fin 3) (hp : phases phase = some [p.val, q.val]) (y : Option ℂ) (u i : CV .asym)
    (h : KLaw (s := .asym) (.ground p q) y u i) : FaultLaw (s := .asym) 3 phase y u i := by
  refine ⟨fun r hs hr => ?_, fun h => absurd h (by decide), fun h => absurd h (by decide), fun h => absurd h (by decide), fun _ p' q' hp' => ?_⟩
  · refine h.1 r (fun e => hr _ hp ?_) (fun e => hr _ hp ?_)
    · subst e; simp
    · subst e; simp
  · rw [hp] at hp'
    injection hp' with hp'
    injection hp' with h1 h2
    injection h2 with h2
    obtain rfl : p = p' := Fin.ext h1
    obtain rfl : q = q' := Fin.ext h2
    cases y with
    | none => exact h.2.1 rfl
    | some z => exact h.2.2 z rfl

theorem three_law (y : Option ℂ) (u i : CV s) (h : FaultLaw 0 0 y u i) : KLaw .three y u i := by
  have := h.2.1 rfl
  refine ⟨fun e => ?_, fun z e => ?_⟩ <;> subst e <;> exact this

theorem single_law {phase : Int} (p : Fin 3) (hp : phases phase = some [p.val]) (y : Option ℂ) (u i : CV .asym)
    (h : FaultLaw (s := .asym) 1 phase y u i) : KLaw (s := .asym) (.single p) y u i := by
  have := h.2.2.1 rfl p hp
  refine ⟨fun r hr => h.1 r rfl fun l hl => ?_, fun e => ?_, fun z e => ?_⟩
  · rw [hp] at hl
    injection hl with hl
    subst hl
    rw [List.mem_singleton]
    exact fun e => hr (Fin.ext e)
  all_goals subst e; exact this

theorem two_law {phase : Int} (p q : Fin 3) (hp : phases phase = some [p.val, q.val]) (y : Option ℂ) (u i : CV .asym)
    (h : FaultLaw (s := .asym) 2 phase y u i) : KLaw (s := .asym) (.two p q) y u i := by
  have := h.2.2.2.1 rfl p q hp
  refine ⟨fun r hr hr' => h.1 r rfl fun l hl => ?_, this.1, fun e => ?_, fun z e => ?_⟩
  · rw [hp] at hl
    injection hl with hl
    subst hl
    simp only [List.mem_cons, List.not_mem_nil, or_false]
    exact fun e => e.elim (fun e => hr (Fin.ext e)) fun e => hr' (Fin.ext e)
  all_goals subst e; exact this.2

theorem ground_law {phase : Int} (p q : Fin 3) (hp : phases phase = some [p.val, q.val]) (y : Option ℂ) (u i : CV .asym)
    (h : FaultLaw (s := .asym) 3 phase y u i) : KLaw (s := .asym) (.ground p q) y u i := by
  have := h.2.2.2.2 rfl p q hp
  refine ⟨fun r hr hr' => h.1 r rfl fun l hl => ?_, fun e => ?_, fun z e => ?_⟩
  · rw [hp] at hl
    injection hl with hl
    subst hl
    simp only [List.mem_cons, List.not_mem_nil, or_false]
    exact fun e => e.elim (fun e => hr (Fin.ext e)) fun e => hr' (Fin.ext e)
  all_goals subst e; exact this

/-- The case of the solver for a meaningful combination. -/
theorem kind_of_meaningful {t p : Int} (h : Meaningful t p) (hs : s = .sym → t = 0) :
    ∃ kind : Kind s.phases, kindOf s t p = some kind ∧ kind.Proper ∧ (∀ y u i, KLaw kind y u i ↔ FaultLaw t p y u i) ∧
      ((∃ a, kind = .single a) → t = 1) ∧ ((∃ a b, kind = .ground a b) → t = 3) := by
  cases s with
  | sym =>
    obtain rfl := hs rfl
    refine ⟨.three, by simp [kindOf], trivial, ?_, by simp, by simp⟩
    have hp : p = 0 := by
      rcases meaningful_cases h with ⟨_, h⟩ | ⟨h, _⟩ | ⟨h, _⟩ | ⟨h, _⟩
      · exact h
      all_goals exact absurd h (by decide)
    subst hp
    exact fun y u i => ⟨law_three y u i, three_law y u i⟩
  | asym =>
    rcases meaningful_cases h with ⟨rfl, rfl⟩ | ⟨rfl, rfl | rfl | rfl⟩ | ⟨rfl, rfl | rfl | rfl⟩ | ⟨rfl, rfl | rfl | rfl⟩
    · exact ⟨.three, by simp [kindOf], trivial, fun y u i => ⟨law_three y u i, three_law y u i⟩, by simp, by simp⟩
    · exact ⟨Kind.single (n := 3) 0, by simp [kindOf, phaseIndex]; rfl, trivial, fun y u i => ⟨law_single 0 rfl y u i, single_law 0 rfl y u i⟩, by simp, by simp⟩
    · exact ⟨Kind.single (n := 3) 1, by simp [kindOf, phaseIndex]; rfl, trivial, fun y u i => ⟨law_single 1 rfl y u i, single_law 1 rfl y u i⟩, by simp, by simp⟩
    · exact ⟨Kind.single (n := 3) 2, by simp [kindOf, phaseIndex]; rfl, trivial, fun y u i => ⟨law_single 2 rfl y u i, single_law 2 rfl y u i⟩, by simp, by simp⟩
    · exact ⟨Kind.two (n := 3) 0 1, by simp [kindOf, phaseIndex], (by decide : (0 : Fin 3) ≠ 1), fun y u i => ⟨law_two 0 1 rfl y u i, two_law 0 1 rfl y u i⟩, by simp, by simp⟩
    · exact ⟨Kind.two (n := 3) 0 2, by simp [kindOf, phaseIndex], (by decide : (0 : Fin 3) ≠ 2), fun y u i => ⟨law_two 0 2 rfl y u i, two_law 0 2 rfl y u i⟩, by simp, by simp⟩
    · exact ⟨Kind.two (n := 3) 1 2, by simp [kindOf, phaseIndex], (by decide : (1 : Fin 3) ≠ 2), fun y u i => ⟨law_two 1 2 rfl y u i, two_law 1 2 rfl y u i⟩, by simp, by simp⟩
    · exact ⟨Kind.ground (n := 3) 0 1, by simp [kindOf, phaseIndex], (by decide : (0 : Fin 3) ≠ 1), fun y u i => ⟨law_ground 0 1 rfl y u i, ground_law 0 1 rfl y u i⟩, by simp, by simp⟩
    · exact ⟨Kind.ground (n := 3) 0 2, by simp [kindOf, phaseIndex], (by decide : (0 : Fin 3) ≠ 2), fun y u i => ⟨law_ground 0 2 rfl y u i, ground_law 0 2 rfl y u i⟩, by simp, by simp⟩
    · exact ⟨Kind.ground (n := 3) 1 2, by simp [kindOf, phaseIndex], (by decide : (1 : Fin 3) ≠ 2), fun y u i => ⟨law_ground 1 2 rfl y u i, ground_law 1 2 rfl y u i⟩, by simp, by simp⟩

/-- The current of all faults of a bus satisfies the law of their parallel admittance. -/
theorem busFault_law {kind : Kind s.phases} (hk : kind.Proper) (solid : Bool) {n : Nat} (hn : 0 < n) (y : ℂ) (x c : CV s) :
    KLaw kind (if solid then none else some y) (busVoltage kind solid n x) (busFault kind solid n y x c) := by
  have hn0 : n ≠ 0 := by omega
  cases solid <;> cases kind with
  | three => simp [KLaw, busVoltage, busFault]
  | single p =>
    simp only [KLaw, busVoltage, busFault]
    refine ⟨fun r hr => by simp [hr], by simp, by simp⟩
  | two p q =>
    simp only [KLaw, busVoltage, busFault]
    have hpq : p ≠ q := hk
    refine ⟨fun r h1 h2 => by simp [h1, h2], by simp [hpq.symm] <;> ring, by simp [hpq], by simp⟩
  | ground p q =>
    simp only [KLaw, busVoltage, busFault]
    have hpq : p ≠ q := hk
    refine ⟨fun r h1 h2 => by simp [h1, h2, hn0], by simp [hpq, hpq.symm], ?_⟩
    simp [hpq, hpq.symm, hn0] <;> ring

/-- Every voltage and fault current that satisfies the law comes from a solution of the equations. -/
theorem law_busFault {kind : Kind s.phases} (hk : kind.Proper) (solid : Bool) (n : Nat) (y : ℂ) (u i c : CV s)
    (h : 0 < n → KLaw kind (if solid then none else some y) u i) (h0 : n = 0 → i = 0 ∧ solid = false ∧ y = 0) :
    ∃ x, busVoltage kind solid n x = u ∧ busFault kind solid n y x c = i := by
  rcases Nat.eq_zero_or_pos n with hn | hn
  · obtain ⟨h1, h2, h3⟩ := h0 hn
    subst hn h1 h2 h3
    refine ⟨u, ?_, ?_⟩ <;> cases kind <;> simp [busVoltage, busFault]
    all_goals first | rfl | (funext r; simp)
  · replace h := h hn
    have hn0 : n ≠ 0 := by omega
    cases solid <;> cases kind with
    | three =>
      simp only [Bool.false_eq_true, if_false, if_true] at h
      first
      | exact ⟨u, rfl, by funext p; exact (h.2 y rfl p).symm⟩
      | refine ⟨fun p => c p - i p, ?_, ?_⟩
        · funext p; simp [busVoltage, h.1 rfl p]
        · funext p; simp [busFault]
    | single p =>
      simp only [Bool.false_eq_true, if_false, if_true] at h
      first
      | refine ⟨u, rfl, ?_⟩
        funext r
        by_cases hr : r = p
        · subst hr; simp [busFault, h.2.2 y rfl]
        · simp [busFault, hr, h.1 r hr]
      | refine ⟨Function.update u p (c p - i p), ?_, ?_⟩
        · funext r
          by_cases hr : r = p
          · subst hr; simp [busVoltage, h.2.1 rfl]
          · simp [busVoltage, hr]
        · funext r
          by_cases hr : r = p
          · subst hr; simp [busFault]
          · simp [busFault, hr, h.1 r hr]
    | two p q =>
      have hpq : p ≠ q := hk
      simp only [Bool.false_eq_true, if_false, if_true] at h
      first
      | refine ⟨u, rfl, ?_⟩
        funext r
        by_cases hr : r = p
        · subst hr; simp [busFault, h.2.2.2 y rfl]
        · by_cases hr' : r = q
          · subst hr'
            have e1 := h.2.2.2 y rfl
            have e2 := h.2.1
            simp [busFault, hr]
            linear_combination e1 - e2
          · simp [busFault, hr, hr', h.1 r hr hr']
      | refine ⟨Function.update u q (c p - i p), ?_, ?_⟩
        · funext r
          by_cases hr : r = q
          · subst hr; simp [busVoltage, h.2.2.1 rfl, hpq]
          · simp [busVoltage, hr]
        · funext r
          by_cases hr : r = p
          · subst hr; simp [busFault]
          · by_cases hr' : r = q
            · subst hr'
              have e2 := h.2.1
              simp [busFault, hr]
              linear_combination -e2
            · simp [busFault, hr, hr', h.1 r hr hr']
    | ground p q =>
      have hpq : p ≠ q := hk
      simp only [Bool.false_eq_true, if_false, if_true] at h
      first
      | obtain ⟨e1, e2⟩ := h.2.2 y rfl
        refine ⟨Function.update u q (c p - i p - ((n : ℂ) - 1) * u p), ?_, ?_⟩
        · funext r
          by_cases hr : r = q
          · subst hr; simp [busVoltage, hn0, hpq, e1]
          · simp [busVoltage, hr, hn0]
        · funext r
          by_cases hr : r = p
          · subst hr; simp [busFault, hn0, hpq]; ring
          · by_cases hr' : r = q
            · subst hr'
              simp [busFault, hr, hn0, hpq]
              linear_combination -e2
            · simp [busFault, hr, hr', h.1 r hr hr', hn0]
      | obtain ⟨e1, e2⟩ := h.2.1 rfl
        refine ⟨Function.update (Function.update u p (c p - i p)) q (c q - i q), ?_, ?_⟩
        · funext r
          by_cases hr : r = q
          · subst hr; simp [busVoltage, e2]
          · by_cases hr' : r = p
            · subst hr'; simp [busVoltage, e1, hr]
            · simp [busVoltage, hr, hr']
        · funext r
          by_cases hr : r = p
          · subst hr; simp [busFault, hpq]
          · by_cases hr' : r = q
            · subst hr'; simp [busFault, hr]
            · simp [busFault, hr, hr', h.1 r hr hr']

/-- The reported current of every fault satisfies its law. -/
theorem finalFault_law {kind : Kind s.phases} (hk : kind.Proper) (solid : Bool) {n : Nat} (hn : 0 < n) (yk : Option ℂ) (hy : yk = none → solid = true)
    (x iB iI : CV s) :
    KLaw kind yk (busVoltage kind solid n x) (finalFault kind yk (if solid then 1 else 0) n x iB iI) := by
  have hn0 : n ≠ 0 := by omega
  have hn' : (n : ℂ) ≠ 0 := by exact_mod_cast hn0
  cases yk with
  | none =>
    rw [hy rfl]
    cases kind with
    | three => simp [KLaw, busVoltage]
    | single p =>
      simp only [KLaw, busVoltage, finalFault, secondF, firstF]
      refine ⟨fun r hr => by simp [hr], by simp, by simp⟩
    | two p q =>
      simp only [KLaw, busVoltage, finalFault, secondF, firstF]
      have hpq : p ≠ q := hk
      refine ⟨fun r h1 h2 => by simp [h1, h2], by simp [hpq], by simp [hpq], by simp⟩
    | ground p q =>
      simp only [KLaw, busVoltage, finalFault, secondF, firstF]
      have hpq : p ≠ q := hk
      refine ⟨fun r h1 h2 => by simp [h1, h2], by simp [hpq], by simp⟩
  | some z =>
    cases solid <;> cases kind with
    | three => simp [KLaw, busVoltage, finalFault, secondF, firstF]
    | single p =>
      simp only [KLaw, busVoltage, finalFault, secondF, firstF]
      refine ⟨fun r hr => by simp [hr], by simp, by simp⟩
    | two p q =>
      simp only [KLaw, busVoltage, finalFault, secondF, firstF]
      have hpq : p ≠ q := hk
      refine ⟨fun r h1 h2 => by simp [h1, h2], by simp [hpq] , by simp, by simp [hpq] <;> ring⟩
    | ground p q =>
      simp only [KLaw, busVoltage, finalFault, secondF, firstF]
      have hpq : p ≠ q := hk
      refine ⟨fun r h1 h2 => by simp [h1, h2], by simp [hpq], ?_⟩
      simp [hpq, hpq.symm, hn0] <;> ring

end PGM.ShortCircuit
