import Verif.PowerFlow.Result

/-!
# Power flow results: lemmas
-/

namespace PGM.PowerFlow

open PGM.YBus PGM.Component

variable {s : Symm}

theorem mem_onBus {l : List Nat} {b k : Nat} : k ∈ onBus l b ↔ l[k]? = some b := by
  unfold onBus
  rw [List.mem_filter, List.mem_range]
  constructor
  · rintro ⟨_, h⟩; simpa using h
  · intro h; exact ⟨(List.getElem?_eq_some_iff.mp h).1, by simpa using h⟩

theorem onBus_sum {V : Type} [AddCommMonoid V] (l : List Nat) (f : Nat → V) (b : Nat) :
    ((onBus l b).map f).sum = (l.zipIdx.map fun x => if x.1 = b then f x.2 else 0).sum := by
  have key : ∀ (l : List Nat) (o : Nat), (((List.range' o l.length).filter fun k => l[k - o]? == some b).map f).sum =
      ((l.zipIdx o).map fun x => if x.1 = b then f x.2 else 0).sum := by
    intro l
    induction l with
    | nil => intro o; rfl
    | cons a l ih =>
      intro o
      rw [List.zipIdx_cons, List.length_cons, List.range'_succ, List.filter_cons]
      have hcong : (List.range' (o + 1) l.length).filter (fun k => (a :: l)[k - o]? == some b) =
          (List.range' (o + 1) l.length).filter (fun k => l[k - (o + 1)]? == some b) := by
        apply List.filter_congr
        intro k hk
        rw [List.mem_range'_1] at hk
        have : k - o = (k - (o + 1)) + 1 := by omega
        rw [this, List.getElem?_cons_succ]
      rw [hcong, List.map_cons, List.sum_cons, ← ih (o + 1)]
      by_cases hab : a = b
      · subst hab
        simp
      · simp [hab]
  have k0 := key l 0
  unfold onBus
  rw [List.range_eq_range']
  simpa using k0

/-! ## Loops that set results -/

theorem loads_fold (inp : PfInput s) (type : Nat → LoadType) (bus : Nat) (ks : List Nat) (out : PfOutput s) :
    let r := ks.foldl (loadStep inp type bus) out
    r.u = out.u ∧ r.injection = out.injection ∧ r.branch = out.branch ∧ r.shunt = out.shunt ∧ r.source = out.source ∧
    ∀ k, r.load k = if k ∈ ks then ⟨fun p => (loadResult (type k) (inp.sInj k p) (out.u bus p)).1,
      fun p => (loadResult (type k) (inp.sInj k p) (out.u bus p)).2⟩ else out.load k := by
  induction ks generalizing out with
  | nil => simp
  | cons a ks ih =>
    simp only [List.foldl_cons]
    obtain ⟨i1, i2, i3, i4, i5, i6⟩ := ih (loadStep inp type bus out a)
    refine ⟨i1, i2, i3, i4, i5, fun k => ?_⟩
    rw [i6]
    by_cases hk : k ∈ ks
    · rw [if_pos hk, if_pos (List.mem_cons_of_mem _ hk)]
      rfl
    · rw [if_neg hk]
      by_cases hka : k = a
      · subst hka
        rw [if_pos (by simp)]
        simp [loadStep]
      · rw [if_neg (by simp [hka, hk])]
        simp [loadStep, hka]

theorem regulate_fold (bus : Nat) (gs : List (Nat × CV s)) (out : PfOutput s) :
    let r := gs.foldl (regulateStep bus) out
    r.u = out.u ∧ r.injection = out.injection ∧ r.branch = out.branch ∧ r.shunt = out.shunt ∧ r.source = out.source ∧
    ∀ k, (∀ g ∈ gs, g.1 ≠ k) → r.load k = out.load k := by
  induction gs generalizing out with
  | nil => simp
  | cons a gs ih =>
    simp only [List.foldl_cons]
    obtain ⟨i1, i2, i3, i4, i5, i6⟩ := ih (regulateStep bus out a)
    refine ⟨i1, i2, i3, i4, i5, fun k hk => ?_⟩
    rw [i6 k (fun g hg => hk g (by simp [hg]))]
    have : k ≠ a.1 := fun e => hk a (by simp) e.symm
    simp [regulateStep, this]

theorem sources_fold (bus : Nat) (i : Nat → CV s) (ks : List Nat) (out : PfOutput s) :
    let r := ks.foldl (setSource bus i) out
    r.u = out.u ∧ r.injection = out.injection ∧ r.branch = out.branch ∧ r.shunt = out.shunt ∧ r.load = out.load ∧
    ∀ k, r.source k = if k ∈ ks then ⟨out.u bus * star (i k), i k⟩ else out.source k := by
  induction ks generalizing out with
  | nil => simp
  | cons a ks ih =>
    simp only [List.foldl_cons]
    obtain ⟨i1, i2, i3, i4, i5, i6⟩ := ih (setSource bus i out a)
    refine ⟨i1, i2, i3, i4, i5, fun k => ?_⟩
    rw [i6]
    by_cases hk : k ∈ ks
    · rw [if_pos hk, if_pos (List.mem_cons_of_mem _ hk)]
      rfl
    · rw [if_neg hk]
      by_cases hka : k = a
      · subst hka
        rw [if_pos (by simp)]
        simp [setSource]
      · rw [if_neg (by simp [hka, hk])]
        simp [setSource, hka]

/-- The total current that the sources of a bus have to deliver, given the currents of the loads. -/
noncomputable def totalSource (N : PfNet s) (bus : Nat) (out : PfOutput s) : CV s :=
  star (out.injection bus / out.u bus) - ((onBus N.loadBus bus).map fun k => (out.load k).cur).sum

/-- The current of a source. -/
noncomputable def sourceCurrent (N : PfNet s) (inp : PfInput s) (bus : Nat) (it : CV s) (k : Nat) : CV s :=
  if (onBus N.sourceBus bus).length = 1 then it else multipleSource N inp (onBus N.sourceBus bus) it k

theorem sourceResult_eq (N : PfNet s) (inp : PfInput s) (bus : Nat) (out : PfOutput s) :
    sourceResult N inp bus out =
      (onBus N.sourceBus bus).foldl (setSource bus (sourceCurrent N inp bus (totalSource N bus out))) out := by
  unfold sourceResult sourceCurrent totalSource
  cases h : onBus N.sourceBus bus with
  | nil => rfl
  | cons src rest =>
    simp only
    cases rest with
    | nil => simp [setSource]
    | cons x rest => simp

/-- One bus: what changes and what the results are. -/
theorem pfBus_spec (N : PfNet s) (inp : PfInput s) (type : Nat → LoadType) (alloc : Nat → PfOutput s → List (Nat × CV s))
    (halloc : ∀ b o, ∀ g ∈ alloc b o, N.loadBus[g.1]? = some b) (out : PfOutput s) (bus : Nat) :
    let r := pfBus N inp type alloc out bus
    r.u = out.u ∧ r.injection = out.injection ∧ r.branch = out.branch ∧ r.shunt = out.shunt ∧
    (∀ k, N.loadBus[k]? ≠ some bus → r.load k = out.load k) ∧ (∀ k, N.sourceBus[k]? ≠ some bus → r.source k = out.source k) ∧
    (∀ k, N.sourceBus[k]? = some bus → r.source k =
      ⟨out.u bus * star (sourceCurrent N inp bus (totalSource N bus r) k), sourceCurrent N inp bus (totalSource N bus r) k⟩) ∧
    ((∀ b o, alloc b o = []) → ∀ k, N.loadBus[k]? = some bus →
      r.load k = ⟨fun p => (loadResult (type k) (inp.sInj k p) (out.u bus p)).1,
        fun p => (loadResult (type k) (inp.sInj k p) (out.u bus p)).2⟩) := by
  unfold pfBus
  simp only
  obtain ⟨a1, a2, a3, a4, a5, a6⟩ := loads_fold inp type bus (onBus N.loadBus bus) out
  set o1 := (onBus N.loadBus bus).foldl (loadStep inp type bus) out
  obtain ⟨b1, b2, b3, b4, b5, b6⟩ := regulate_fold bus (alloc bus o1) o1
  set o2 := (alloc bus o1).foldl (regulateStep bus) o1 with ho2
  rw [sourceResult_eq]
  obtain ⟨c1, c2, c3, c4, c5, c6⟩ := sources_fold bus (sourceCurrent N inp bus (totalSource N bus o2)) (onBus N.sourceBus bus) o2
  set o3 := (onBus N.sourceBus bus).foldl (setSource bus (sourceCurrent N inp bus (totalSource N bus o2))) o2
  have htot : totalSource N bus o3 = totalSource N bus o2 := by
    unfold totalSource
    rw [c1, c2, c5]
  refine ⟨c1.trans (b1.trans a1), c2.trans (b2.trans a2), c3.trans (b3.trans a3), c4.trans (b4.trans a4), ?_, ?_, ?_, ?_⟩
  · intro k hk
    rw [c5, b6 k, a6, if_neg (fun h => hk (mem_onBus.mp h))]
    intro g hg e
    exact hk (e ▸ halloc bus o1 g hg)
  · intro k hk
    rw [c6, if_neg (fun h => hk (mem_onBus.mp h)), b5, a5]
  · intro k hk
    rw [c6, if_pos (mem_onBus.mpr hk), htot, b1, a1]
  · intro hno k hk
    rw [c5, b6 k (by rw [hno]; simp), a6, if_pos (mem_onBus.mpr hk)]

/-- The final result of a bus is the one that was computed for it. -/
theorem pfResult_bus (N : PfNet s) (inp : PfInput s) (type : Nat → LoadType) (alloc : Nat → PfOutput s → List (Nat × CV s))
    (halloc : ∀ b o, ∀ g ∈ alloc b o, N.loadBus[g.1]? = some b) (u : Nat → CV s) (bus : Nat) (hbus : bus < N.T.nBus) :
    let r := pfResult N inp type alloc u
    r.u = u ∧ r.injection = injection N u ∧ r.branch = branchOutput N u ∧ r.shunt = shuntOutput N u ∧
    (∀ k, N.sourceBus[k]? = some bus → r.source k =
      ⟨u bus * star (sourceCurrent N inp bus (totalSource N bus r) k), sourceCurrent N inp bus (totalSource N bus r) k⟩) ∧
    ((∀ b o, alloc b o = []) → ∀ k, N.loadBus[k]? = some bus →
      r.load k = ⟨fun p => (loadResult (type k) (inp.sInj k p) (u bus p)).1,
        fun p => (loadResult (type k) (inp.sInj k p) (u bus p)).2⟩) := by
  have main : ∀ (l : List Nat) (out : PfOutput s), l.Nodup →
      (let r := l.foldl (pfBus N inp type alloc) out
       r.u = out.u ∧ r.injection = out.injection ∧ r.branch = out.branch ∧ r.shunt = out.shunt ∧
       (bus ∉ l → (∀ k, N.loadBus[k]? = some bus → r.load k = out.load k) ∧
         ∀ k, N.sourceBus[k]? = some bus → r.source k = out.source k) ∧
       (bus ∈ l → (∀ k, N.sourceBus[k]? = some bus → r.source k =
          ⟨out.u bus * star (sourceCurrent N inp bus (totalSource N bus r) k), sourceCurrent N inp bus (totalSource N bus r) k⟩) ∧
        ((∀ b o, alloc b o = []) → ∀ k, N.loadBus[k]? = some bus →
          r.load k = ⟨fun p => (loadResult (type k) (inp.sInj k p) (out.u bus p)).1,
            fun p => (loadResult (type k) (inp.sInj k p) (out.u bus p)).2⟩))) := by
    intro l
    induction l with
    | nil => intro out _; simp
    | cons a l ih =>
      intro out hn
      rw [List.nodup_cons] at hn
      simp only [List.foldl_cons]
      obtain ⟨i1, i2, i3, i4, i5, i6⟩ := ih (pfBus N inp type alloc out a) hn.2
      obtain ⟨p1, p2, p3, p4, p5, p6, p7, p8⟩ := pfBus_spec N inp type alloc halloc out a
      set r := l.foldl (pfBus N inp type alloc) (pfBus N inp type alloc out a)
      refine ⟨i1.trans p1, i2.trans p2, i3.trans p3, i4.trans p4, ?_, ?_⟩
      · intro hb
        rw [List.mem_cons, not_or] at hb
        obtain ⟨j1, j2⟩ := i5 hb.2
        refine ⟨fun k hk => ?_, fun k hk => ?_⟩
        · rw [j1 k hk, p5 k (by rw [hk]; exact fun e => hb.1 (Option.some.inj e))]
        · rw [j2 k hk, p6 k (by rw [hk]; exact fun e => hb.1 (Option.some.inj e))]
      · intro hb
        rw [List.mem_cons] at hb
        rcases hb with rfl | hb
        · obtain ⟨j1, j2⟩ := i5 hn.1
          have htot : totalSource N bus r = totalSource N bus (pfBus N inp type alloc out bus) := by
            unfold totalSource
            rw [i1, i2]
            congr 2
            apply List.map_congr_left
            intro k hk
            rw [j1 k (mem_onBus.mp hk)]
          refine ⟨fun k hk => ?_, fun hno k hk => ?_⟩
          · rw [j2 k hk, p7 k hk, htot]
          · rw [j1 k hk, p8 hno k hk]
        · rw [← p1]
          exact i6 hb
  obtain ⟨m1, m2, m3, m4, _, m6⟩ := main (List.range N.T.nBus) _ List.nodup_range
  exact ⟨m1, m2, m3, m4, (m6 (List.mem_range.mpr hbus)).1, (m6 (List.mem_range.mpr hbus)).2⟩

/-! ## Several sources on one bus -/

theorem multipleSym_sum (y1 uref : Nat → ℂ) (sources : List Nat) (it : ℂ) (h : (sources.map y1).sum ≠ 0) :
    (sources.map (multipleSym y1 uref sources it)).sum = it := by
  unfold multipleSym
  simp only
  have key : ∀ (l : List Nat) (z yt iref : ℂ),
      (l.map fun k => y1 k * z * (uref k * yt - iref) + y1 k * z * it).sum =
        z * yt * (l.map fun j => uref j * y1 j).sum - z * iref * (l.map y1).sum + z * it * (l.map y1).sum := by
    intro l
    induction l with
    | nil => intros; simp
    | cons a l ih =>
      intro z yt iref
      simp only [List.map_cons, List.sum_cons, ih]
      ring
  rw [key]
  field_simp
  ring

theorem sum_mulVec (f0 f1 f2 : Nat → ℂ) (l : List Nat) :
    (l.map fun k => symMatrix.mulVec ![f0 k, f1 k, f2 k]).sum =
      symMatrix.mulVec ![(l.map f0).sum, (l.map f1).sum, (l.map f2).sum] := by
  induction l with
  | nil =>
    simp only [List.map_nil, List.sum_nil]
    have : (![0, 0, 0] : Fin 3 → ℂ) = 0 := by funext i; fin_cases i <;> rfl
    rw [this, Matrix.mulVec_zero]
  | cons a l ih =>
    simp only [List.map_cons, List.sum_cons]
    rw [ih, ← Matrix.mulVec_add]
    congr 1
    funext i
    fin_cases i <;> simp

theorem sym_inv (v : C3) : symMatrix.mulVec (symMatrixInv.mulVec v) = v := by
  have h := a_add
  have h1 := a_sq
  have h2 := a_mul_a2
  have h3 := a2_mul_a2
  funext i
  simp only [symMatrix, symMatrixInv, Matrix.mulVec, dotProduct, Fin.sum_univ_three]
  fin_cases i
  · simp; linear_combination (3⁻¹ : ℂ) * (v 1 + v 2) * h
  · simp; linear_combination (3⁻¹ : ℂ) * (v 0 + v 2) * h + (2 * 3⁻¹ : ℂ) * v 1 * h2 + (3⁻¹ : ℂ) * v 2 * (h1 + h3)
  · simp; linear_combination (3⁻¹ : ℂ) * (v 0 + v 1) * h + (2 * 3⁻¹ : ℂ) * v 2 * h2 + (3⁻¹ : ℂ) * v 1 * (h1 + h3)

theorem inv_sym (v : C3) : symMatrixInv.mulVec (symMatrix.mulVec v) = v := by
  have h := a_add
  have h1 := a_sq
  have h2 := a_mul_a2
  have h3 := a2_mul_a2
  funext i
  simp only [symMatrix, symMatrixInv, Matrix.mulVec, dotProduct, Fin.sum_univ_three]
  fin_cases i
  · simp; linear_combination (3⁻¹ : ℂ) * (v 1 + v 2) * h
  · simp; linear_combination (3⁻¹ : ℂ) * (v 0 + v 2) * h + (2 * 3⁻¹ : ℂ) * v 1 * h2 + (3⁻¹ : ℂ) * v 2 * (h1 + h3)
  · simp; linear_combination (3⁻¹ : ℂ) * (v 0 + v 1) * h + (2 * 3⁻¹ : ℂ) * v 2 * h2 + (3⁻¹ : ℂ) * v 1 * (h1 + h3)

theorem list_sum_apply {n : Nat} (l : List (Fin n → ℂ)) (p : Fin n) : l.sum p = (l.map fun v => v p).sum := by
  induction l with
  | nil => rfl
  | cons a l ih => simp [ih]

theorem sum_scale (f : Nat → ℂ) (c : ℂ) (l : List Nat) : (l.map fun k => f k * c).sum = (l.map f).sum * c := by
  induction l with
  | nil => simp
  | cons a l ih => simp only [List.map_cons, List.sum_cons, ih]; ring

theorem multipleAsym_sum (y1 y0 uref : Nat → ℂ) (sources : List Nat) (it : C3) (h1 : (sources.map y1).sum ≠ 0)
    (h0 : (sources.map y0).sum ≠ 0) : (sources.map (multipleAsym y1 y0 uref sources it)).sum = it := by
  unfold multipleAsym
  simp only
  rw [sum_mulVec]
  have e1 : (sources.map fun k => y0 k / (sources.map y0).sum * symMatrixInv.mulVec it 0).sum = symMatrixInv.mulVec it 0 := by
    have : (fun k => y0 k / (sources.map y0).sum * symMatrixInv.mulVec it 0) =
      fun k => y0 k * ((sources.map y0).sum⁻¹ * symMatrixInv.mulVec it 0) := by funext k; ring
    rw [this, sum_scale]
    field_simp
  have e3 : (sources.map fun k => y1 k / (sources.map y1).sum * symMatrixInv.mulVec it 2).sum = symMatrixInv.mulVec it 2 := by
    have : (fun k => y1 k / (sources.map y1).sum * symMatrixInv.mulVec it 2) =
      fun k => y1 k * ((sources.map y1).sum⁻¹ * symMatrixInv.mulVec it 2) := by funext k; ring
    rw [this, sum_scale]
    field_simp
  have e2 := multipleSym_sum y1 uref sources (symMatrixInv.mulVec it 1) h1
  unfold multipleSym at e2
  simp only [mul_one_div] at e2
  rw [e1, e2, e3]
  have : (![symMatrixInv.mulVec it 0, symMatrixInv.mulVec it 1, symMatrixInv.mulVec it 2] : Fin 3 → ℂ) = symMatrixInv.mulVec it := by
    funext i
    fin_cases i <;> rfl
  rw [this, sym_inv]

/-- Whatever the total, the sources of a bus deliver it. -/
theorem sourceCurrent_sum (N : PfNet s) (inp : PfInput s) (bus : Nat) (it : CV s) (hne : onBus N.sourceBus bus ≠ [])
    (hy : 1 < (onBus N.sourceBus bus).length → ((onBus N.sourceBus bus).map N.y1).sum ≠ 0 ∧
      (s = .asym → ((onBus N.sourceBus bus).map N.y0).sum ≠ 0)) :
    ((onBus N.sourceBus bus).map (sourceCurrent N inp bus it)).sum = it := by
  unfold sourceCurrent
  by_cases h : (onBus N.sourceBus bus).length = 1
  · obtain ⟨x, hx⟩ := List.length_eq_one_iff.mp h
    simp [hx]
  · simp only [h, if_false]
    have hlen : 1 < (onBus N.sourceBus bus).length := by
      have : (onBus N.sourceBus bus).length ≠ 0 := fun e => hne (List.length_eq_zero_iff.mp e)
      omega
    obtain ⟨h1, h0⟩ := hy hlen
    cases s with
    | sym =>
      funext p
      have := multipleSym_sum N.y1 inp.source (onBus N.sourceBus bus) (it p) h1
      rw [list_sum_apply]
      simpa [multipleSource, List.map_map, Function.comp_def] using this
    | asym =>
      have := multipleAsym_sum N.y1 N.y0 inp.source (onBus N.sourceBus bus) it h1 (h0 rfl)
      exact this

end PGM.PowerFlow
