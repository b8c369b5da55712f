import Verif.ShortCircuit.Equations

/-!
# Short-circuit calculation: the results
-/

namespace PGM.ShortCircuit

open PGM.YBus PGM.Component PGM.PowerFlow PGM.Lu

variable {s : Symm}

/-- The current of a fault after the first loop. -/
noncomputable def firstF (kind : Kind s.phases) (yk : Option ℂ) (cnt : Nat) (x old : CV s) : CV s :=
  match yk, kind with
  | none, .three => fun p => -(x p) / cnt
  | none, .single p => Function.update old p (-(x p) / cnt)
  | none, .two p q => Function.update (Function.update old p (-(x q) / cnt)) q (-(-(x q) / cnt))
  | none, .ground p q => Function.update (Function.update old p (-(x p) / cnt)) q (-(x q) / cnt)
  | some y, kind =>
    if 0 < cnt then old
    else match kind with
      | .three => fun p => y * x p
      | .single p => Function.update old p (y * x p)
      | .two p q => Function.update (Function.update old p (y * x p - y * x q)) q (y * x q - y * x p)
      | .ground p q => Function.update (Function.update old p (-(x q))) q (-(-(x q)) + y * x p)

/-- The voltage of the bus after one fault of the first loop. -/
noncomputable def firstV (kind : Kind s.phases) (yk : Option ℂ) (cnt : Nat) (u : CV s) : CV s :=
  match yk, kind with
  | none, .three => 0
  | none, .single p => Function.update u p 0
  | none, .two p q => Function.update u q (u p)
  | none, .ground p q => Function.update (Function.update u p 0) q 0
  | some _, .ground p q => if 0 < cnt then u else Function.update u q (u p)
  | some _, _ => u

/-- The current of a fault after the second loop. -/
noncomputable def secondF (kind : Kind s.phases) (yk : Option ℂ) (cnt n : Nat) (iB iI old : CV s) : CV s :=
  match yk, kind with
  | none, .three => fun p => old p + iB p / cnt
  | none, .single p => Function.update old p (old p + iB p / cnt)
  | none, .two p q => Function.update (Function.update old p (old p + iI p / cnt)) q (old q - iI p / cnt)
  | none, .ground p q => Function.update (Function.update old p (old p + iB p)) q (old q + iB q)
  | some _, .ground p q => if cnt = 0 then Function.update (Function.update old p (old p + iI p / n)) q (old q - iI p / n) else old
  | some _, _ => old

theorem firstStep_eq (y : Nat → Option ℂ) (kind : Kind s.phases) (cnt b : Nat) (x : CV s) (out : ScOut s) (k : Nat) :
    firstStep y kind cnt b x out k =
      { out with u := Function.update out.u b (firstV kind (y k) cnt (out.u b)),
                 fault := Function.update out.fault k (firstF kind (y k) cnt x (out.fault k)) } := by
  unfold firstStep
  cases hy : y k with
  | none => cases kind <;> rfl
  | some z =>
    by_cases hc : 0 < cnt
    · cases kind <;> simp [firstV, firstF, hc]
    · cases kind <;> simp [firstV, firstF, hc, firstFinite, setFault, setVoltage]

theorem secondStep_eq (y : Nat → Option ℂ) (kind : Kind s.phases) (cnt n : Nat) (iB iI : CV s) (out : ScOut s) (k : Nat) :
    secondStep y kind cnt n iB iI out k =
      { out with fault := Function.update out.fault k (secondF kind (y k) cnt n iB iI (out.fault k)) } := by
  unfold secondStep
  cases hy : y k with
  | none => cases kind <;> rfl
  | some z =>
    cases kind with
    | ground p q => by_cases hc : cnt = 0 <;> simp [secondF, hc, setFault]
    | _ => simp [secondF]

theorem firstLoop (y : Nat → Option ℂ) (kind : Kind s.phases) (cnt b : Nat) (x : CV s) (ks : List Nat) (hn : ks.Nodup) (out : ScOut s) :
    let r := ks.foldl (firstStep y kind cnt b x) out
    r.u = Function.update out.u b (ks.foldl (fun u k => firstV kind (y k) cnt u) (out.u b)) ∧ r.source = out.source ∧
    (∀ k, r.fault k = if k ∈ ks then firstF kind (y k) cnt x (out.fault k) else out.fault k) := by
  induction ks generalizing out with
  | nil => simp
  | cons a ks ih =>
    rw [List.nodup_cons] at hn
    simp only [List.foldl_cons]
    obtain ⟨i1, i2, i3⟩ := ih hn.2 (firstStep y kind cnt b x out a)
    rw [firstStep_eq] at i1 i2 i3 ⊢
    refine ⟨?_, i2, fun k => ?_⟩
    · rw [i1]; simp
    · rw [i3]
      simp only
      by_cases hka : k = a
      · subst hka; simp [hn.1]
      · simp [hka]

theorem secondLoop (y : Nat → Option ℂ) (kind : Kind s.phases) (cnt n : Nat) (iB iI : CV s) (ks : List Nat) (hn : ks.Nodup) (out : ScOut s) :
    let r := ks.foldl (secondStep y kind cnt n iB iI) out
    r.u = out.u ∧ r.source = out.source ∧
    (∀ k, r.fault k = if k ∈ ks then secondF kind (y k) cnt n iB iI (out.fault k) else out.fault k) := by
  induction ks generalizing out with
  | nil => simp
  | cons a ks ih =>
    rw [List.nodup_cons] at hn
    simp only [List.foldl_cons]
    obtain ⟨i1, i2, i3⟩ := ih hn.2 (secondStep y kind cnt n iB iI out a)
    rw [secondStep_eq] at i1 i2 i3 ⊢
    refine ⟨i1, i2, fun k => ?_⟩
    rw [i3]
    simp only
    by_cases hka : k = a
    · subst hka; simp [hn.1]
    · simp [hka]

theorem sourceLoop (N : PfNet s) (inp : ScInput) (b : Nat) (l : List Nat) (st : ScOut s × CV s × CV s) :
    let r := l.foldl (sourceStep N inp b) st
    r.1.u = st.1.u ∧ r.1.fault = st.1.fault ∧
    (∀ k, r.1.source k = if k ∈ l then physicalSource N ⟨inp.source, fun _ => 0⟩ (st.1.u b) k else st.1.source k) ∧
    r.2.1 = st.2.1 + (l.map (physicalSource N ⟨inp.source, fun _ => 0⟩ (st.1.u b))).sum ∧
    r.2.2 = st.2.2 + (l.map fun k => dot s (yRef s (N.y1 k) (N.y0 k)) (spread s (inp.source k))).sum := by
  induction l generalizing st with
  | nil => simp
  | cons a l ih =>
    simp only [List.foldl_cons]
    obtain ⟨i1, i2, i3, i4, i5⟩ := ih (sourceStep N inp b st a)
    have hp : dot s (yRef s (N.y1 a) (N.y0 a)) (spread s (inp.source a)) - dot s (yRef s (N.y1 a) (N.y0 a)) (st.1.u b) =
        physicalSource N ⟨inp.source, fun _ => 0⟩ (st.1.u b) a := by
      unfold physicalSource; rw [map_sub]
    have hstep : sourceStep N inp b st a = ({ st.1 with source := Function.update st.1.source a (physicalSource N ⟨inp.source, fun _ => 0⟩ (st.1.u b) a) },
        st.2.1 + physicalSource N ⟨inp.source, fun _ => 0⟩ (st.1.u b) a,
        st.2.2 + dot s (yRef s (N.y1 a) (N.y0 a)) (spread s (inp.source a))) := by
      unfold sourceStep; simp only; rw [hp]
    rw [hstep] at i1 i2 i3 i4 i5 ⊢
    refine ⟨i1, i2, fun k => ?_, ?_, ?_⟩
    · rw [i3]
      simp only
      by_cases hkl : k ∈ l
      · simp [hkl]
      · by_cases hka : k = a
        · subst hka; simp [hkl]
        · simp [hka, hkl]
    · rw [i4]; simp [add_assoc]
    · rw [i5]; simp [add_assoc]

theorem onBus_nodup (l : List Nat) (b : Nat) : (onBus l b).Nodup := List.Nodup.filter _ List.nodup_range

/-- The voltages after the first loop. -/
theorem firstV_fold (y : Nat → Option ℂ) {kind : Kind s.phases} (hk : kind.Proper) (ks : List Nat) (x : CV s) :
    ks.foldl (fun u k => firstV kind (y k) (if anySolid y ks then 1 else 0) u) x = busVoltage kind (anySolid y ks) ks.length x := by
  -- with a fault without impedance
  have solid : ∀ (ks : List Nat) (x : CV s), ks.foldl (fun u k => firstV kind (y k) 1 u) x =
      if anySolid y ks then busVoltage kind true ks.length x else x := by
    intro ks
    induction ks with
    | nil => intro x; simp [anySolid]
    | cons a ks ih =>
      intro x
      rw [List.foldl_cons, ih]
      cases hy : y a with
      | some z =>
        have hs : anySolid y (a :: ks) = anySolid y ks := by simp [anySolid, hy]
        rw [hs]
        have : firstV kind (some z) 1 x = x := by cases kind <;> simp [firstV]
        rw [this]
        by_cases h : anySolid y ks = true
        · rw [if_pos h, if_pos h]; simp [busVoltage]
        · rw [if_neg h, if_neg h]
      | none =>
        have hs : anySolid y (a :: ks) = true := by simp [anySolid, hy]
        rw [if_pos hs]
        have e : firstV kind none 1 x = busVoltage kind true (a :: ks).length x := by
          cases kind <;> simp [firstV, busVoltage]
        rw [e]
        by_cases h : anySolid y ks = true
        · rw [if_pos h]
          cases kind with
          | three => simp [busVoltage]
          | single p => simp [busVoltage]
          | two p q =>
            have hpq : p ≠ q := hk
            funext i
            by_cases hi : i = q
            · subst hi; simp [busVoltage, hpq]
            · simp [busVoltage, hi]
          | ground p q =>
            funext i
            by_cases hi : i = q
            · subst hi; simp [busVoltage]
            · by_cases hp : i = p
              · subst hp; simp [busVoltage, hi]
              · simp [busVoltage, hi, hp]
        · rw [if_neg h]
  -- with finite admittances only
  have fin : ∀ (ks : List Nat) (x : CV s), anySolid y ks = false → ks.foldl (fun u k => firstV kind (y k) 0 u) x =
      busVoltage kind false ks.length x := by
    intro ks
    induction ks with
    | nil => intro x _; cases kind <;> simp [busVoltage]
    | cons a ks ih =>
      intro x h
      simp only [anySolid, List.any_cons, Bool.or_eq_false_iff] at h
      rw [List.foldl_cons, ih _ h.2]
      cases hy : y a with
      | none => rw [hy] at h; simp at h
      | some z =>
        cases kind with
        | ground p q =>
          have hpq : p ≠ q := hk
          funext i
          by_cases hn : ks.length = 0
          · simp [busVoltage, firstV, hn]
          · by_cases hi : i = q
            · subst hi; simp [busVoltage, firstV, hn, hpq]
            · simp [busVoltage, firstV, hn, hi]
        | _ => simp [busVoltage, firstV]
  by_cases h : anySolid y ks = true
  · rw [if_pos h]
    rw [h, solid, if_pos h]
  · rw [if_neg h]
    have h' : anySolid y ks = false := by simpa using h
    rw [h']
    exact fin ks x h'

/-- The final current of a fault. -/
noncomputable def finalFault (kind : Kind s.phases) (yk : Option ℂ) (cnt n : Nat) (x iB iI : CV s) : CV s :=
  secondF kind yk cnt n iB iI (firstF kind yk cnt x 0)

/-- What the results are, bus by bus. -/
theorem results_spec (N : PfNet s) (inp : ScInput) {kind : Kind s.phases} (hk : kind.Proper) (cnt : Nat → Nat) (x : Nat → CV s)
    (hcnt : ∀ b, b < N.T.nBus → cnt b = if anySolid (admittance inp) (onBus inp.faultBus b) then 1 else 0)
    (hbus : ∀ b ∈ inp.faultBus, b < N.T.nBus) :
    let out := results N inp kind cnt x
    out.u = voltageOf inp kind x ∧
    out.branch = branchFlow N.T N.y.param (dot s) out.u ∧ out.shunt = shuntFlow N.T N.y.param (dot s) out.u ∧
    (∀ b k, b < N.T.nBus → N.sourceBus[k]? = some b → out.source k = physicalSource N ⟨inp.source, fun _ => 0⟩ (out.u b) k) ∧
    (∀ b k, b < N.T.nBus → inp.faultBus[k]? = some b → out.fault k =
      finalFault kind (admittance inp k) (cnt b) (onBus inp.faultBus b).length (x b)
        (sourceI N inp b - dot s (sourceY N b) (out.u b)) (sourceI N inp b)) := by
  -- one bus
  have bus : ∀ (out : ScOut s) (b : Nat), b < N.T.nBus →
      let v := busVoltage kind (anySolid (admittance inp) (onBus inp.faultBus b)) (onBus inp.faultBus b).length (out.u b)
      (resultBus N inp kind cnt out b).u = Function.update out.u b v ∧
      (∀ k, (resultBus N inp kind cnt out b).source k = if N.sourceBus[k]? = some b then physicalSource N ⟨inp.source, fun _ => 0⟩ v k else out.source k) ∧
      (∀ k, (resultBus N inp kind cnt out b).fault k = if inp.faultBus[k]? = some b then
        secondF kind (admittance inp k) (cnt b) (onBus inp.faultBus b).length (sourceI N inp b - dot s (sourceY N b) v) (sourceI N inp b)
          (firstF kind (admittance inp k) (cnt b) (out.u b) (out.fault k)) else out.fault k) := by
    intro out b hb
    simp only
    unfold resultBus
    simp only
    obtain ⟨a1, a2, a3⟩ := firstLoop (admittance inp) kind (cnt b) b (out.u b) (onBus inp.faultBus b) (onBus_nodup _ _) out
    set o1 := (onBus inp.faultBus b).foldl (firstStep (admittance inp) kind (cnt b) b (out.u b)) out
    obtain ⟨b1, b2, b3, b4, b5⟩ := sourceLoop N inp b (onBus N.sourceBus b) (o1, 0, 0)
    set o2 := (onBus N.sourceBus b).foldl (sourceStep N inp b) (o1, 0, 0)
    obtain ⟨c1, c2, c3⟩ := secondLoop (admittance inp) kind (cnt b) (onBus inp.faultBus b).length o2.2.1 o2.2.2 (onBus inp.faultBus b)
      (onBus_nodup _ _) o2.1
    rw [hcnt b hb, firstV_fold _ hk] at a1
    set v := busVoltage kind (anySolid (admittance inp) (onBus inp.faultBus b)) (onBus inp.faultBus b).length (out.u b)
    have hv : o1.u b = v := by rw [a1, Function.update_self]
    refine ⟨by rw [c1, b1]; exact a1, fun k => ?_, fun k => ?_⟩
    · rw [c2, b3]
      simp only [mem_onBus, hv, a2]
    · rw [c3, b2, b4, b5]
      simp only [mem_onBus, a3, zero_add, hv]
      rw [physical_sum]
      by_cases h : inp.faultBus[k]? = some b
      · simp only [h, if_true]
        rfl
      · simp only [h, if_false]
  -- all buses
  have loop : ∀ (l : List Nat) (out : ScOut s), l.Nodup → (∀ b ∈ l, b < N.T.nBus) →
      let r := l.foldl (resultBus N inp kind cnt) out
      (∀ b, r.u b = if b ∈ l then busVoltage kind (anySolid (admittance inp) (onBus inp.faultBus b)) (onBus inp.faultBus b).length (out.u b)
        else out.u b) ∧
      (∀ k, (∀ b ∈ l, N.sourceBus[k]? ≠ some b) → r.source k = out.source k) ∧
      (∀ b k, b ∈ l → N.sourceBus[k]? = some b → r.source k = physicalSource N ⟨inp.source, fun _ => 0⟩ (r.u b) k) ∧
      (∀ k, (∀ b ∈ l, inp.faultBus[k]? ≠ some b) → r.fault k = out.fault k) ∧
      (∀ b k, b ∈ l → inp.faultBus[k]? = some b → r.fault k =
        secondF kind (admittance inp k) (cnt b) (onBus inp.faultBus b).length (sourceI N inp b - dot s (sourceY N b) (r.u b)) (sourceI N inp b)
          (firstF kind (admittance inp k) (cnt b) (out.u b) (out.fault k))) := by
    intro l
    induction l with
    | nil => intro out _ _; simp
    | cons a l ih =>
      intro out hn hlt
      rw [List.nodup_cons] at hn
      simp only [List.foldl_cons]
      obtain ⟨i1, i2, i3, i4, i5⟩ := ih (resultBus N inp kind cnt out a) hn.2 (fun b hb => hlt b (by simp [hb]))
      obtain ⟨g1, g2, g3⟩ := bus out a (hlt a (by simp))
      set v := busVoltage kind (anySolid (admittance inp) (onBus inp.faultBus a)) (onBus inp.faultBus a).length (out.u a) with hv
      have hua : (l.foldl (resultBus N inp kind cnt) (resultBus N inp kind cnt out a)).u a = v := by
        rw [i1, if_neg hn.1, g1, Function.update_self]
      refine ⟨fun b => ?_, fun k hks => ?_, fun b k hb hkb => ?_, fun k hks => ?_, fun b k hb hkb => ?_⟩
      · rw [i1, g1]
        by_cases hba : b = a
        · subst hba; rw [if_neg hn.1, Function.update_self, if_pos List.mem_cons_self]
        · simp [hba]
      · rw [i2 k (fun b hb => hks b (by simp [hb])), g2, if_neg (hks a (by simp))]
      · rw [List.mem_cons] at hb
        by_cases hba : b = a
        · subst hba
          rw [i2 k (fun b' hb' e => ?_), g2, if_pos hkb, hua]
          rw [hkb] at e
          injection e with e
          exact hn.1 (e ▸ hb')
        · exact i3 b k (hb.resolve_left hba) hkb
      · rw [i4 k (fun b hb => hks b (by simp [hb])), g3, if_neg (hks a (by simp))]
      · rw [List.mem_cons] at hb
        by_cases hba : b = a
        · subst hba
          rw [i4 k (fun b' hb' e => ?_), g3, if_pos hkb, hua]
          rw [hkb] at e
          injection e with e
          exact hn.1 (e ▸ hb')
        · have hf : (resultBus N inp kind cnt out a).fault k = out.fault k := by
            rw [g3, if_neg]
            rw [hkb]
            intro e
            injection e with e
            exact hba e
          have hu : (resultBus N inp kind cnt out a).u b = out.u b := by rw [g1, Function.update_of_ne hba]
          rw [i5 b k (hb.resolve_left hba) hkb, hf, hu]
  obtain ⟨l1, l2, l3, l4, l5⟩ := loop (List.range N.T.nBus) ⟨x, fun _ => 0, fun _ => 0, [], []⟩ List.nodup_range (fun b hb => List.mem_range.mp hb)
  simp only
  refine ⟨?_, rfl, rfl, fun b k hb hkb => l3 b k (List.mem_range.mpr hb) hkb, fun b k hb hkb => l5 b k (List.mem_range.mpr hb) hkb⟩
  funext b
  have e := l1 b
  change ((List.range N.T.nBus).foldl (resultBus N inp kind cnt) ⟨x, fun _ => 0, fun _ => 0, [], []⟩).u b = _
  rw [e]
  unfold voltageOf
  by_cases hb : b ∈ List.range N.T.nBus
  · rw [if_pos hb]
  · rw [if_neg hb]
    have hempty : onBus inp.faultBus b = [] := by
      rw [List.eq_nil_iff_forall_not_mem]
      intro k hkm
      exact hb (List.mem_range.mpr (hbus b (List.mem_of_getElem? (mem_onBus.mp hkm))))
    rw [hempty]
    cases kind <;> simp [busVoltage, anySolid]

end PGM.ShortCircuit
