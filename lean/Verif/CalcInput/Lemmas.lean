import Verif.CalcInput.Spec

/-!
# Filling vectors (C58): helper lemmas
-/

namespace PGM.CalcInput

open PGM.Topology

variable {P : Type}

/-- The vectors have the given lengths. -/
def Shape (len : Nat → Nat) (n : Nat) (v : List (List P)) : Prop := v.length = n ∧ ∀ (g : Nat) l, v[g]? = some l → l.length = len g

theorem shape_entry {len : Nat → Nat} {n : Nat} {v : List (List P)} (h : Shape len n v) {g p : Nat} :
    (∃ x, entry v g p = some x) ↔ g < n ∧ p < len g := by
  unfold entry
  constructor
  · rintro ⟨x, hx⟩
    cases hg : v[g]? with
    | none => rw [hg] at hx; cases hx
    | some l =>
      rw [hg] at hx
      have hx : l[p]? = some x := hx
      have h1 := h.2 g l hg
      obtain ⟨h2, _⟩ := List.getElem?_eq_some_iff.mp hg
      obtain ⟨h3, _⟩ := List.getElem?_eq_some_iff.mp hx
      rw [← h.1, ← h1]
      exact ⟨h2, h3⟩
  · rintro ⟨h1, h2⟩
    have hg : v[g]? = some (v[g]'(by rw [h.1]; exact h1)) := List.getElem?_eq_getElem _
    rw [hg]
    have := h.2 g _ hg
    exact ⟨_, List.getElem?_eq_getElem (by rw [this]; exact h2)⟩

theorem resized_shape (d : P) (len : Nat → Nat) (n : Nat) : Shape len n (resized d len n) := by
  unfold resized
  refine ⟨by simp, fun g l hl => ?_⟩
  rw [List.getElem?_map] at hl
  cases hg : (List.range n)[g]? with
  | none => rw [hg] at hl; cases hl
  | some k =>
    rw [hg] at hl
    obtain ⟨h1, h2⟩ := List.getElem?_eq_some_iff.mp hg
    rw [List.getElem_range] at h2
    subst h2
    injection hl with hl
    rw [← hl, List.length_replicate]

theorem resized_entry (d : P) (len : Nat → Nat) (n : Nat) {g p : Nat} (hg : g < n) (hp : p < len g) : entry (resized d len n) g p = some d := by
  unfold entry resized
  rw [List.getElem?_map, List.getElem?_range hg]
  show (List.replicate (len g) d)[p]? = _
  rw [List.getElem?_replicate, if_pos hp]

theorem put_ok {len : Nat → Nat} {n : Nat} {v : List (List P)} (h : Shape len n v) {g p : Nat} (hg : g < n) (hp : p < len g) (x : P) :
    ∃ v', put v (g, p) x = .ok v' ∧ Shape len n v' ∧ entry v' g p = some x ∧ ∀ g' p', (g', p') ≠ (g, p) → entry v' g' p' = entry v g' p' := by
  have hgv : g < v.length := by rw [h.1]; exact hg
  have hl : v[g]? = some v[g] := List.getElem?_eq_getElem hgv
  have hlen := h.2 g _ hl
  refine ⟨v.set g (v[g].set p x), ?_, ⟨by rw [List.length_set, h.1], fun g' l hl' => ?_⟩, ?_, fun g' p' hne => ?_⟩
  · unfold put
    simp only [hl]
    rw [if_pos (by rw [hlen]; exact hp)]
  · rw [List.getElem?_set] at hl'
    by_cases e : g = g'
    · subst e
      rw [if_pos rfl, if_pos hgv] at hl'
      injection hl' with hl'
      rw [← hl', List.length_set, hlen]
    · rw [if_neg e] at hl'
      exact h.2 g' l hl'
  · unfold entry
    rw [List.getElem?_set, if_pos rfl, if_pos hgv]
    show (v[g].set p x)[p]? = _
    rw [List.getElem?_set, if_pos rfl, if_pos (by rw [hlen]; exact hp)]
  · unfold entry
    rw [List.getElem?_set]
    by_cases e : g = g'
    · subst e
      rw [if_pos rfl, if_pos hgv, hl]
      show (v[g].set p x)[p']? = v[g][p']?
      rw [List.getElem?_set, if_neg fun e => hne (by rw [e])]
    · rw [if_neg e]

/-- Filling the vectors: every included component is at its place, everything else is as before. -/
theorem prepare_ok {len : Nat → Nat} {nI : Nat} (d : P) (param : Nat → Except Stop P) (coup : Nat → Option (Nat × Nat)) (include_ : Nat → Bool) (n : Nat)
    (hin : ∀ i, i < n → include_ i = true → ∀ g p, coup i = some (g, p) → g < nI ∧ p < len g)
    (hinj : ∀ i i', i < n → i' < n → include_ i = true → include_ i' = true → coup i = coup i' → coup i ≠ none → i = i')
    (hpar : ∀ i, i < n → include_ i = true → coup i ≠ none → ∃ x, param i = .ok x) :
    ∃ v, prepareInput param coup include_ n (resized d len nI) = .ok v ∧ Shape len nI v ∧
      (∀ i, i < n → include_ i = true → ∀ g p, coup i = some (g, p) → ∃ x, param i = .ok x ∧ entry v g p = some x) ∧
      ∀ g p, (∀ i, i < n → include_ i = true → coup i ≠ some (g, p)) → entry v g p = entry (resized d len nI) g p := by
  unfold prepareInput
  induction n with
  | zero => exact ⟨_, rfl, resized_shape d len nI, fun i hi => absurd hi (by omega), fun _ _ _ => rfl⟩
  | succ n ih =>
    obtain ⟨v, h1, h2, h3, h4⟩ := ih (fun i hi => hin i (by omega)) (fun i i' hi hi' => hinj i i' (by omega) (by omega)) (fun i hi => hpar i (by omega))
    rw [List.range_succ, List.foldlM_append, h1]
    have hs : (Except.ok v >>= fun w => List.foldlM (prepareStep param coup include_) w [n]) = prepareStep param coup include_ v n := by
      show List.foldlM (prepareStep param coup include_) v [n] = _
      rw [List.foldlM_cons]
      simp only [List.foldlM_nil, bind_pure]
    rw [hs]
    unfold prepareStep
    by_cases hinc : include_ n = true
    · rw [if_pos hinc]
      cases hc : coup n with
      | none =>
        refine ⟨v, rfl, h2, fun i hi hii g p hcp => ?_, fun g p hno => h4 g p fun i hi => hno i (by omega)⟩
        by_cases e : i = n
        · subst e; rw [hc] at hcp; cases hcp
        · exact h3 i (by omega) hii g p hcp
      | some m =>
        obtain ⟨g0, p0⟩ := m
        obtain ⟨x, hx⟩ := hpar n (by omega) hinc (by rw [hc]; exact Option.some_ne_none _)
        obtain ⟨hg, hp⟩ := hin n (by omega) hinc g0 p0 hc
        obtain ⟨v', k1, k2, k3, k4⟩ := put_ok h2 hg hp x
        refine ⟨v', ?_, k2, fun i hi hii g p hcp => ?_, fun g p hno => ?_⟩
        · rw [hx]
          exact k1
        · by_cases e : i = n
          · subst e
            rw [hc] at hcp
            simp only [Option.some.injEq, Prod.mk.injEq] at hcp
            obtain ⟨rfl, rfl⟩ := hcp
            exact ⟨x, hx, k3⟩
          · obtain ⟨y, e1, e2⟩ := h3 i (by omega) hii g p hcp
            refine ⟨y, e1, ?_⟩
            rw [k4 g p, e2]
            intro e'
            simp only [Prod.mk.injEq] at e'
            obtain ⟨rfl, rfl⟩ := e'
            exact e (hinj i n (by omega) (by omega) hii hinc (by rw [hcp, hc]) (by rw [hcp]; exact Option.some_ne_none _))
        · rw [k4 g p, h4 g p fun i hi => hno i (by omega)]
          intro e'
          exact hno n (by omega) hinc (by rw [hc, e'])
    · rw [if_neg hinc]
      refine ⟨v, rfl, h2, fun i hi hii g p hcp => ?_, fun g p hno => h4 g p fun i hi => hno i (by omega)⟩
      by_cases e : i = n
      · subst e; exact absurd hii hinc
      · exact h3 i (by omega) hii g p hcp

/-- A coupling that gives every place of an island to exactly one component. -/
structure Coupling (n nI : Nat) (include_ : Nat → Bool) (want coup : Nat → Option (Nat × Nat)) (dense : Nat → List Nat) : Prop where
  some_ : ∀ i, i < n → include_ i = true → ∀ g o, want i = some (g, o) → g < nI ∧ ∃ p, coup i = some (g, p) ∧ (dense g)[p]? = some o
  none_ : ∀ i, i < n → include_ i = true → want i = none → coup i = none
  place : ∀ g p, g < nI → p < (dense g).length → ∃ i, i < n ∧ include_ i = true ∧ coup i = some (g, p) ∧
    ∀ i', i' < n → include_ i' = true → coup i' = some (g, p) → i' = i

theorem Coupling.range {n nI : Nat} {include_ : Nat → Bool} {want coup : Nat → Option (Nat × Nat)} {dense : Nat → List Nat}
    (h : Coupling n nI include_ want coup dense) {i : Nat} (hi : i < n) (hinc : include_ i = true) {g p : Nat} (hc : coup i = some (g, p)) :
    g < nI ∧ p < (dense g).length := by
  cases hw : want i with
  | none => rw [h.none_ i hi hinc hw] at hc; cases hc
  | some m =>
    obtain ⟨g', o⟩ := m
    obtain ⟨h1, p', h2, h3⟩ := h.some_ i hi hinc g' o hw
    rw [hc] at h2
    simp only [Option.some.injEq, Prod.mk.injEq] at h2
    obtain ⟨rfl, rfl⟩ := h2
    exact ⟨h1, (List.getElem?_eq_some_iff.mp h3).1⟩

/-- The number of places is at most the number of components. -/
theorem Coupling.length_le {n nI : Nat} {include_ : Nat → Bool} {want coup : Nat → Option (Nat × Nat)} {dense : Nat → List Nat}
    (h : Coupling n nI include_ want coup dense) {g : Nat} (hg : g < nI) : (dense g).length ≤ n := by
  classical
  choose f hf using fun p : Fin (dense g).length => h.place g p hg p.2
  have : Function.Injective fun p : Fin (dense g).length => (⟨f p, (hf p).1⟩ : Fin n) := by
    intro p q e
    simp only [Fin.mk.injEq] at e
    have h1 := (hf p).2.2.1
    have h2 := (hf q).2.2.1
    rw [e, h2] at h1
    simp only [Option.some.injEq, Prod.mk.injEq, true_and] at h1
    exact Fin.ext h1.symm
  simpa using Fintype.card_le_of_injective _ this

/-- With such a coupling and vectors that are long enough, the values of all components are delivered; places that are too many keep the default. -/
theorem prepare_delivers {n nI : Nat} {include_ : Nat → Bool} {want coup : Nat → Option (Nat × Nat)} {dense : Nat → List Nat}
    (h : Coupling n nI include_ want coup dense) (d : P) (param : Nat → Except Stop P) (len : Nat → Nat) (hlen : ∀ g, g < nI → (dense g).length ≤ len g)
    (hpar : ∀ i, i < n → include_ i = true → want i ≠ none → ∃ x, param i = .ok x) :
    ∃ v, prepareInput param coup include_ n (resized d len nI) = .ok v ∧ Shape len nI v ∧
      (∀ i, i < n → include_ i = true → ∀ g o, want i = some (g, o) →
        ∃ p x, coup i = some (g, p) ∧ (dense g)[p]? = some o ∧ param i = .ok x ∧ entry v g p = some x) ∧
      ∀ g p, g < nI → (dense g).length ≤ p → p < len g → entry v g p = some d := by
  have hw : ∀ i, i < n → include_ i = true → coup i ≠ none → want i ≠ none := fun i hi hinc hc e => hc (h.none_ i hi hinc e)
  obtain ⟨v, h1, h2, h3, h4⟩ := prepare_ok (nI := nI) (len := len) d param coup include_ n
    (fun i hi hinc g p hc => ⟨(h.range hi hinc hc).1, lt_of_lt_of_le (h.range hi hinc hc).2 (hlen g (h.range hi hinc hc).1)⟩)
    (fun i i' hi hi' hinc hinc' e hne => by
      obtain ⟨⟨g, p⟩, hc⟩ := Option.ne_none_iff_exists'.mp hne
      obtain ⟨hg, hp⟩ := h.range hi hinc hc
      obtain ⟨k, _, _, _, hk⟩ := h.place g p hg hp
      rw [hk i hi hinc hc, hk i' hi' hinc' (e ▸ hc)])
    (fun i hi hinc hc => hpar i hi hinc (hw i hi hinc hc))
  refine ⟨v, h1, h2, fun i hi hinc g o hwi => ?_, fun g p hg hp hp' => ?_⟩
  · obtain ⟨_, p, k1, k2⟩ := h.some_ i hi hinc g o hwi
    obtain ⟨x, k3, k4⟩ := h3 i hi hinc g p k1
    exact ⟨p, x, k1, k2, k3, k4⟩
  · rw [h4 g p, resized_entry d len nI hg hp']
    intro i hi hinc hc
    have := (h.range hi hinc hc).2
    omega

/-- The values in the form of the specification, if the vectors have the right length. -/
theorem delivers_of {n nI : Nat} {include_ : Nat → Bool} {want coup : Nat → Option (Nat × Nat)} {dense : Nat → List Nat}
    (h : Coupling n nI include_ want coup dense) (d : P) (param : Nat → Except Stop P)
    (hpar : ∀ i, i < n → include_ i = true → want i ≠ none → ∃ x, param i = .ok x) :
    ∃ v, prepareInput param coup include_ n (resized d (fun g => (dense g).length) nI) = .ok v ∧ v.length = nI ∧
      Delivers n (fun i => if include_ i then want i else none) (fun i => (param i).toOption) (fun i => if include_ i then coup i else none) dense v := by
  obtain ⟨v, h1, h2, h3, _⟩ := prepare_delivers h d param (fun g => (dense g).length) (fun _ _ => le_refl _) hpar
  refine ⟨v, h1, h2.1, ⟨fun i hi g o hw => ?_, fun i hi hw => ?_, fun g p x hx => ?_, fun g l hl => h2.2 g l hl⟩⟩
  · by_cases hinc : include_ i = true
    · simp only [hinc, if_true] at hw ⊢
      obtain ⟨p, x, k1, k2, k3, k4⟩ := h3 i hi hinc g o hw
      exact ⟨p, x, k1, k2, by rw [k3]; rfl, k4⟩
    · simp only [hinc] at hw
      cases hw
  · by_cases hinc : include_ i = true
    · simp only [hinc, if_true] at hw ⊢
      exact h.none_ i hi hinc hw
    · simp [hinc]
  · obtain ⟨hg, hp⟩ := (shape_entry h2).mp ⟨x, hx⟩
    obtain ⟨i, k1, k2, k3, k4⟩ := h.place g p hg hp
    refine ⟨i, k1, by simp only [k2, if_true, k3], fun i' hi' e => ?_⟩
    by_cases hinc : include_ i' = true
    · simp only [hinc, if_true] at e
      exact k4 i' hi' hinc e
    · simp [hinc] at e

/-! ## Couplings -/

variable {A : Type} [AddGroup A]

/-- Where an appliance at a node belongs. -/
def wantAt (s : State A) (node : List Nat) (on : Nat → Bool) (i : Nat) : Option (Nat × Nat) := if on i then node[i]?.bind s.node else none

theorem appliance_coupling {G : Grid A} (h : G.Valid) {s : State A} {c : Coupled} (hb : build G = some (s, c)) (criterion : Nat → Nat → Bool)
    (node : List Nat) (on : Nat → Bool) :
    ∃ dense coup, coupleAppliances criterion s node on = some (dense, coup) ∧
      Coupling node.length s.islands.length (fun _ => true) (wantAt s node on) coup dense ∧ ∀ i, node.length ≤ i → coup i = none := by
  obtain ⟨dense, coup, h1, h2, h3, h4⟩ := appliances_coupled h hb criterion node on
  obtain ⟨dense', coup', k1, _, _, k4, _⟩ := components_coupled criterion (fun i => node[i]?.bind s.node) on node.length s.islands.length
    (fun g => (s.islands[g]?.map (·.phaseShift.length)).getD 0) (fun i g o hf => by
      cases hn : node[i]? with
      | none => rw [hn] at hf; cases hf
      | some x => rw [hn] at hf; exact ((numbering h hb).1 x g o hf).2) fun _ => none
  have e : coupleAppliances criterion s node on = some (dense', coup') := k1
  rw [h1] at e
  simp only [Option.some.injEq, Prod.mk.injEq] at e
  obtain ⟨rfl, rfl⟩ := e
  refine ⟨dense, coup, h1, ⟨fun i hi _ g o hw => ?_, fun i hi _ hw => ?_, fun g p hg hp => ?_⟩, fun i hi => k4 i fun hh => by omega⟩
  · unfold wantAt at hw
    by_cases hon : on i = true
    · rw [if_pos hon, List.getElem?_eq_getElem hi] at hw
      have hw : s.node node[i] = some (g, o) := hw
      have hne : coup i ≠ none := (h2 i _ (List.getElem?_eq_getElem hi)).mpr ⟨hon, (energised_iff h hb _).mp (by rw [hw]; exact Option.some_ne_none _)⟩
      obtain ⟨⟨g', p⟩, hc⟩ := Option.ne_none_iff_exists'.mp hne
      obtain ⟨o', e1, e2⟩ := h3 i _ g' p (List.getElem?_eq_getElem hi) hc
      rw [hw] at e1
      simp only [Option.some.injEq, Prod.mk.injEq] at e1
      obtain ⟨rfl, rfl⟩ := e1
      exact ⟨((numbering h hb).1 _ _ _ hw).2.1, p, hc, e2⟩
    · rw [if_neg hon] at hw; cases hw
  · by_contra hne
    obtain ⟨hon, hen⟩ := (h2 i _ (List.getElem?_eq_getElem hi)).mp hne
    unfold wantAt at hw
    rw [if_pos hon, List.getElem?_eq_getElem hi] at hw
    exact (energised_iff h hb _).mpr hen hw
  · obtain ⟨i, k1, k2, k3⟩ := h4 g p hg hp
    exact ⟨i, k1, rfl, k2, fun i' hi' _ hc => k3 i' hi' hc⟩

/-- The coupling of components that belong to given objects. -/
theorem object_coupling (criterion : Nat → Nat → Bool) (find : Nat → Option (Nat × Nat)) (on : Nat → Bool) (n nI : Nat) (nObj : Nat → Nat)
    (hr : ∀ i g o, find i = some (g, o) → g < nI ∧ o < nObj g) :
    ∃ dense coup, coupleObjects criterion find on n nI nObj (fun _ => none) = some (dense, coup) ∧
      Coupling n nI (fun _ => true) (fun i => if on i then find i else none) coup dense ∧ ∀ g, g < nI → (dense g).Pairwise (· ≤ ·) := by
  obtain ⟨⟨dense, coup⟩, h1, h2⟩ := objects_ok criterion find on n nI nObj (fun i g o hf => (hr i g o hf).2) fun _ => none
  dsimp only at h2
  refine ⟨dense, coup, h1, ⟨fun i hi _ g o hw => ?_, fun i hi _ hw => ?_, fun g p hg hp => ?_⟩, h2.sorted⟩
  · by_cases hon : on i = true
    · rw [if_pos hon] at hw
      have hg := (hr i g o hw).1
      exact ⟨hg, h2.found i g o hi hon hw hg⟩
    · rw [if_neg hon] at hw; cases hw
  · refine h2.other i ?_
    rintro ⟨_, hon, g, o, hf, _⟩
    rw [if_pos hon, hf] at hw
    cases hw
  · obtain ⟨i, ⟨k1, k2, k3, o, k4⟩, k5⟩ := h2.unique g p hg hp
    refine ⟨i, k1, rfl, k3, fun i' hi' _ hc => ?_⟩
    by_cases hon : on i' = true
    · cases hf : find i' with
      | none =>
        have := h2.other i' (by rintro ⟨_, _, g, o, e, _⟩; rw [hf] at e; cases e)
        rw [hc] at this; cases this
      | some m =>
        obtain ⟨g', o'⟩ := m
        obtain ⟨p', e1, _⟩ := h2.found i' g' o' hi' hon hf (hr i' g' o' hf).1
        rw [hc] at e1
        simp only [Option.some.injEq, Prod.mk.injEq] at e1
        obtain ⟨rfl, _⟩ := e1
        exact k5 i' hi' hon ⟨o', hf⟩ hc
    · have := h2.other i' (by rintro ⟨_, e, _⟩; exact hon e)
      rw [hc] at this; cases this

theorem taken_iff (O : Objects) (k : Kind) (t : Terminal) (x : Nat) : taken k t = true ↔ (measures O t x).1 = k := by
  cases k <;> cases t <;> simp [taken, measures]
  all_goals rename_i m; fin_cases m <;> simp

end PGM.CalcInput
