import Verif.Update.Spec
import Mathlib.Tactic.Ring
import Mathlib.Tactic.FieldSimp

/-!
# Laws of the component types

Helper lemmas: every component type satisfies the same few laws, from which the properties in `Verif.Update.Props` and the
lemmas on lists of updates follow.
-/

set_option linter.unusedSectionVars false

namespace PGM.Update

variable {K : Type}

structure Lawful {cl : CompClass} (S : Schema K cl) : Prop where
  fixed_update : ∀ c u, S.fixed (cl.update c u).1 = S.fixed c
  wf_update : ∀ c u, S.wf c → S.wf (cl.update c u).1
  sets : ∀ c u, S.wf c → S.full u → SetsGiven S c u
  inv_given : ∀ c u a, S.wf c → S.given (cl.inverse c u) a =
    match S.given u a with
    | none => none
    | some _ => S.value c a
  inv_full : ∀ c u, S.full u → S.full (cl.inverse c u)
  accept_value : ∀ c a v, S.wf c → S.value c a = some v → S.accept c a v = v
  accept_fixed : ∀ c c', S.fixed c = S.fixed c' → S.accept c = S.accept c'
  ext : ∀ c c', S.wf c → S.fixed c = S.fixed c' → (∀ a, S.value c a = S.value c' a) → c = c'
  cid_fixed : ∀ c c', S.fixed c = S.fixed c' → cl.cid c = cl.cid c'
  uid_withId : ∀ u i, cl.uid (cl.withId u i) = i
  update_withId : ∀ c u i, cl.update c (cl.withId u i) = cl.update c u

variable [Field K] [DecidableEq K]

omit [Field K] [DecidableEq K] in
theorem setSide_given (cur : Bool) (x : Int) :
    (some (Val.flag (setSide cur x).1) : Option (Val K)) =
      match (givenStatus x : Option (Val K)) with
      | none => some (.flag cur)
      | some v => some v := by
  unfold setSide givenStatus naIntS toBool
  by_cases h : x = -128 <;> simp [h]

omit [Field K] [DecidableEq K] in
theorem setStatus_given (cur : Bool) (x : Int) :
    (some (Val.flag (setStatus cur x).1) : Option (Val K)) =
      match (givenStatus x : Option (Val K)) with
      | none => some (.flag cur)
      | some v => some v := by
  unfold setStatus givenStatus naIntS toBool
  by_cases h : x = -128
  · simp [h]
  · simp only [h, if_false]
    split
    · rename_i h2; simp [h2]
    · simp

omit [Field K] [DecidableEq K] in
theorem invStatus_given (x : Int) (b : Bool) :
    (givenStatus (setIfNotNanI x (statusToInt b)) : Option (Val K)) =
      match (givenStatus x : Option (Val K)) with
      | none => none
      | some _ => some (.flag b) := by
  unfold givenStatus setIfNotNanI naIntS statusToInt
  by_cases h : x = -128
  · simp [h]
  · cases b <;> simp [h]

omit [Field K] [DecidableEq K] in
theorem invInt_given (x y : Int) :
    (givenInt (setIfNotNanI x y) : Option (Val K)) =
      match (givenInt x : Option (Val K)) with
      | none => none
      | some _ => givenInt y := by
  unfold givenInt setIfNotNanI naIntS
  by_cases h : x = -128 <;> simp [h]

omit [Field K] [DecidableEq K] in
theorem invID_given (x y : Int) :
    (givenID (setIfNotNanID x y) : Option (Val K)) =
      match (givenID x : Option (Val K)) with
      | none => none
      | some _ => givenID y := by
  unfold givenID setIfNotNanID naIntID
  by_cases h : x = -2147483648 <;> simp [h]

omit [Field K] [DecidableEq K] in
theorem invReal_given (x y : Option K) :
    givenReal (setIfNotNanR x y) =
      match givenReal x with
      | none => none
      | some _ => givenReal y := by
  cases x <;> simp [givenReal, setIfNotNanR]

omit [Field K] in
theorem updateParam_given (new cur : Option K) :
    givenReal (updateParam new cur).1 =
      match givenReal new with
      | none => givenReal cur
      | some v => some v := by
  unfold updateParam
  cases new with
  | none => simp [givenReal]
  | some v =>
    by_cases h : some v = cur
    · simp [givenReal, ← h]
    · simp [givenReal, h]

omit [Field K] [DecidableEq K] in
theorem assign_given (new cur : Option K) :
    givenReal (assignIfGiven new cur) =
      match givenReal new with
      | none => givenReal cur
      | some v => some v := by
  cases new <;> simp [givenReal, assignIfGiven]

omit [DecidableEq K] in
/-- A value that is stored divided by `t` and read back multiplied by `t`. -/
theorem updateReal_given (new cur : Option K) (s t : K) (h : s * t = 1) :
    givenReal ((updateReal new cur s).map (fun x => x * t)) =
      match givenReal new with
      | none => givenReal (cur.map (fun x => x * t))
      | some v => some v := by
  cases new with
  | none => simp [givenReal, updateReal]
  | some v =>
    have : s * v * t = v := by
      rw [mul_right_comm, h, one_mul]
    simp [givenReal, updateReal, this]

omit [DecidableEq K] in
theorem updateReal_given1 (new cur : Option K) :
    givenReal (updateReal new cur (1 : K)) =
      match givenReal new with
      | none => givenReal cur
      | some v => some v := by
  cases new <;> simp [givenReal, updateReal]

omit [Field K] [DecidableEq K] in
theorem givenReal_inj {x y : Option K} (h : givenReal x = givenReal y) : x = y := by
  cases x <;> cases y <;> simp_all [givenReal]

omit [DecidableEq K] in
theorem givenReal_scaled_inj {x y : Option K} {t : K} (ht : t ≠ 0)
    (h : givenReal (x.map (fun x => x * t)) = givenReal (y.map (fun x => x * t))) : x = y := by
  cases x <;> cases y <;> simp_all [givenReal]

omit [DecidableEq K] in
theorem scale_eq (t : K) (x : Option K) : scale t x = x.map (fun v => v * t) := rfl

theorem node_lawful : Lawful (nodeSchema K) where
  fixed_update := fun _ _ => rfl
  wf_update := fun _ _ h => h
  sets := fun _ _ _ _ a => nomatch a
  inv_given := fun _ _ a => nomatch a
  inv_full := fun _ _ h => h
  accept_value := fun _ a => nomatch a
  accept_fixed := fun _ _ _ => rfl
  ext := fun _ _ _ h _ => h
  cid_fixed := fun _ _ h => h
  uid_withId := fun _ _ => rfl
  update_withId := fun _ _ _ => rfl

theorem branch_lawful : Lawful (branchSchema K) where
  fixed_update := fun _ _ => rfl
  wf_update := fun _ _ h => h
  sets := by
    intro c u _ _ a
    cases a
    · exact setSide_given (K := K) _ _
    · exact setSide_given (K := K) _ _
  inv_given := by
    intro c u a _
    cases a
    · exact invStatus_given (K := K) _ _
    · exact invStatus_given (K := K) _ _
  inv_full := fun _ _ h => h
  accept_value := fun _ _ _ _ _ => rfl
  accept_fixed := fun _ _ _ => rfl
  ext := by
    rintro ⟨f, a, b⟩ ⟨f', a', b'⟩ _ h h2
    have h3 := h2 .fromStatus
    have h4 := h2 .toStatus
    simp [branchSchema] at h h3 h4
    subst_vars
    rfl
  cid_fixed := by
    intro c c' h
    exact congrArg BranchFixed.id h
  uid_withId := fun _ _ => rfl
  update_withId := fun _ _ _ => rfl

theorem tapLimit_eq (lo hi x : Int) : tapLimit lo hi x = clampTap lo hi x := by
  unfold tapLimit clampTap
  simp only
  split <;> split <;> (try split) <;> omega

theorem clampTap_ok (f : TransformerFixed) (x : Int) (h : tapOk f x) : clampTap f.tapMin f.tapMax x = x := by
  unfold clampTap
  obtain ⟨_, h⟩ := h
  simp only
  split <;> split <;> (try split) <;> omega

theorem clampTap_range (f : TransformerFixed) (x : Int) (hx : x ≠ -128) (h1 : f.tapMin ≠ -128) (h2 : f.tapMax ≠ -128) :
    tapOk f (clampTap f.tapMin f.tapMax x) := by
  unfold clampTap tapOk
  simp only
  split <;> split <;> (try split) <;> omega

theorem setTap_eq (f : TransformerFixed) (cur new : Int) (h : tapOk f cur) :
    (setTap f.tapMin f.tapMax cur new).1 = if new = -128 then cur else clampTap f.tapMin f.tapMax new := by
  unfold setTap naIntS
  by_cases h1 : new = -128
  · simp [h1]
  · by_cases h2 : new = cur
    · subst h2; simp [h1, clampTap_ok f new h]
    · simp [h1, h2, tapLimit_eq]

omit [Field K] [DecidableEq K] in
theorem setTap_given (f : TransformerFixed) (cur new : Int) (h : tapOk f cur) :
    (some (Val.int (setTap f.tapMin f.tapMax cur new).1) : Option (Val K)) =
      match (givenInt new : Option (Val K)) with
      | none => some (.int cur)
      | some v => some (acceptTap K f v) := by
  rw [setTap_eq f cur new h]
  unfold givenInt acceptTap
  by_cases h1 : new = -128 <;> simp [h1]

theorem setTap_ok (f : TransformerFixed) (cur new : Int) (h : tapOk f cur) (h1 : f.tapMin ≠ -128)
    (h2 : f.tapMax ≠ -128) : tapOk f (setTap f.tapMin f.tapMax cur new).1 := by
  rw [setTap_eq f cur new h]
  split
  · exact h
  · rename_i h3; exact clampTap_range f new h3 h1 h2

theorem transformer_lawful : Lawful (transformerSchema K) where
  fixed_update := fun _ _ => rfl
  wf_update := by
    rintro c u ⟨h, h1, h2⟩
    exact ⟨setTap_ok _ _ _ h h1 h2, h1, h2⟩
  sets := by
    rintro c u ⟨h, h1, h2⟩ _ a
    cases a
    · exact setSide_given (K := K) _ _
    · exact setSide_given (K := K) _ _
    · exact setTap_given (K := K) _ _ _ h
  inv_given := by
    rintro c u a ⟨h, _⟩
    cases a
    · exact invStatus_given (K := K) _ _
    · exact invStatus_given (K := K) _ _
    · have e : (transformerSchema K).value c .tapPos = givenInt (K := K) c.tapPos := by
        simp [transformerSchema, givenInt, h.1]
      rw [e]
      exact invInt_given (K := K) _ _
  inv_full := fun _ _ h => h
  accept_value := by
    rintro c a v ⟨h, _⟩ hv
    cases a
    · rfl
    · rfl
    · simp only [transformerSchema, Option.some.injEq] at hv ⊢
      subst hv
      simp [acceptTap, clampTap_ok _ _ h]
  accept_fixed := by
    intro c c' h
    funext a v
    cases a
    · rfl
    · rfl
    · exact congrArg (acceptTap K · v) h
  ext := by
    rintro ⟨f, a, b, t⟩ ⟨f', a', b', t'⟩ _ h h2
    have h3 := h2 .fromStatus
    have h4 := h2 .toStatus
    have h5 := h2 .tapPos
    simp [transformerSchema] at h h3 h4 h5
    subst_vars
    rfl
  cid_fixed := by
    intro c c' h
    exact congrArg TransformerFixed.id h
  uid_withId := fun _ _ => rfl
  update_withId := fun _ _ _ => rfl

theorem transformer3_lawful : Lawful (transformer3Schema K) where
  fixed_update := fun _ _ => rfl
  wf_update := by
    rintro c u ⟨h, h1, h2⟩
    exact ⟨setTap_ok _ _ _ h h1 h2, h1, h2⟩
  sets := by
    rintro c u ⟨h, h1, h2⟩ _ a
    cases a
    · exact setSide_given (K := K) _ _
    · exact setSide_given (K := K) _ _
    · exact setSide_given (K := K) _ _
    · exact setTap_given (K := K) _ _ _ h
  inv_given := by
    rintro c u a ⟨h, _⟩
    cases a
    · exact invStatus_given (K := K) _ _
    · exact invStatus_given (K := K) _ _
    · exact invStatus_given (K := K) _ _
    · have e : (transformer3Schema K).value c .tapPos = givenInt (K := K) c.tapPos := by
        simp [transformer3Schema, givenInt, h.1]
      rw [e]
      exact invInt_given (K := K) _ _
  inv_full := fun _ _ h => h
  accept_value := by
    rintro c a v ⟨h, _⟩ hv
    cases a
    · rfl
    · rfl
    · rfl
    · simp only [transformer3Schema, Option.some.injEq] at hv ⊢
      subst hv
      simp [acceptTap, clampTap_ok _ _ h]
  accept_fixed := by
    intro c c' h
    funext a v
    cases a
    · rfl
    · rfl
    · rfl
    · exact congrArg (acceptTap K · v) h
  ext := by
    rintro ⟨f, a, b, d, t⟩ ⟨f', a', b', d', t'⟩ _ h h2
    have h3 := h2 .status1
    have h4 := h2 .status2
    have h6 := h2 .status3
    have h5 := h2 .tapPos
    simp [transformer3Schema] at h h3 h4 h5 h6
    subst_vars
    rfl
  cid_fixed := by
    intro c c' h
    exact congrArg TransformerFixed.id h
  uid_withId := fun _ _ => rfl
  update_withId := fun _ _ _ => rfl

theorem shunt_lawful : Lawful (shuntSchema K) where
  fixed_update := fun _ _ => rfl
  wf_update := fun _ _ h => h
  sets := by
    intro c u _ _ a
    cases a
    · exact setStatus_given (K := K) _ _
    all_goals exact updateParam_given _ _
  inv_given := by
    intro c u a _
    cases a
    · exact invStatus_given (K := K) _ _
    all_goals exact invReal_given _ _
  inv_full := fun _ _ h => h
  accept_value := fun _ _ _ _ _ => rfl
  accept_fixed := fun _ _ _ => rfl
  ext := by
    rintro ⟨f, a, b, d, e, g⟩ ⟨f', a', b', d', e', g'⟩ _ h h2
    have h0 := h2 .status
    have h3 := givenReal_inj (h2 .g1)
    have h4 := givenReal_inj (h2 .b1)
    have h5 := givenReal_inj (h2 .g0)
    have h6 := givenReal_inj (h2 .b0)
    simp [shuntSchema] at h h0
    subst_vars
    rfl
  cid_fixed := by
    intro c c' h
    exact congrArg ShuntFixed.id h
  uid_withId := fun _ _ => rfl
  update_withId := fun _ _ _ => rfl

theorem source_lawful : Lawful (sourceSchema K) where
  fixed_update := fun _ _ => rfl
  wf_update := fun _ _ h => h
  sets := by
    intro c u _ _ a
    cases a
    · exact setStatus_given (K := K) _ _
    all_goals exact assign_given _ _
  inv_given := by
    intro c u a _
    cases a
    · exact invStatus_given (K := K) _ _
    all_goals exact invReal_given _ _
  inv_full := fun _ _ h => h
  accept_value := fun _ _ _ _ _ => rfl
  accept_fixed := fun _ _ _ => rfl
  ext := by
    rintro ⟨f, a, b, d, e, g, i⟩ ⟨f', a', b', d', e', g', i'⟩ _ h h2
    have h0 := h2 .status
    have h3 := givenReal_inj (h2 .uRef)
    have h4 := givenReal_inj (h2 .uRefAngle)
    have h5 := givenReal_inj (h2 .sk)
    have h6 := givenReal_inj (h2 .rxRatio)
    have h7 := givenReal_inj (h2 .z01Ratio)
    simp [sourceSchema] at h h0
    subst_vars
    rfl
  cid_fixed := by
    intro c c' h
    exact congrArg SourceFixed.id h
  uid_withId := fun _ _ => rfl
  update_withId := fun _ _ _ => rfl

omit [DecidableEq K] in
theorem dir_base {d b : K} (hd : d * d = 1) (hb : b ≠ 0) : d / b * (d * b) = 1 := by
  have : d / b * (d * b) = d * d := by field_simp
  rw [this, hd]

omit [DecidableEq K] in
theorem dir_base' {d b : K} (hd : d * d = 1) (hb : b ≠ 0) : d * (1 / b) * (d * b) = 1 := by
  have : d * (1 / b) * (d * b) = d * d := by field_simp
  rw [this, hd]

omit [DecidableEq K] in
theorem dir_ne {d : K} (hd : d * d = 1) : d ≠ 0 := by
  rintro rfl
  simp at hd

omit [DecidableEq K] in
theorem map_assoc (x : Option K) (d b : K) :
    x.map (fun x => x * d * b) = x.map (fun x => x * (d * b)) := by
  cases x <;> simp [mul_assoc]

theorem loadGen_lawful (n : Nat) : Lawful (loadGenSchema K n) where
  fixed_update := fun _ _ => rfl
  wf_update := fun _ _ h => h
  sets := by
    rintro c u ⟨hd, hb⟩ _ a
    cases a
    · exact setStatus_given (K := K) _ _
    all_goals
      simp only [loadGenSchema, map_assoc]
      exact updateReal_given _ _ _ _ (dir_base hd hb)
  inv_given := by
    intro c u a _
    cases a
    · exact invStatus_given (K := K) _ _
    all_goals
      simp only [loadGenSchema, map_assoc]
      exact invReal_given _ _
  inv_full := fun _ _ h => h
  accept_value := fun _ _ _ _ _ => rfl
  accept_fixed := fun _ _ _ => rfl
  ext := by
    rintro ⟨f, a, b, d⟩ ⟨f', a', b', d'⟩ ⟨hd, hb⟩ h h2
    simp only [loadGenSchema] at h h2 hd hb
    subst h
    have h0 : a = a' := by simpa using h2 .status
    have hb' : b = b' := by
      funext i
      have := h2 (.p i)
      simp only [map_assoc] at this
      exact givenReal_scaled_inj (mul_ne_zero (dir_ne hd) hb) this
    have hd' : d = d' := by
      funext i
      have := h2 (.q i)
      simp only [map_assoc] at this
      exact givenReal_scaled_inj (mul_ne_zero (dir_ne hd) hb) this
    subst_vars
    rfl
  cid_fixed := by
    intro c c' h
    exact congrArg LoadGenFixed.id h
  uid_withId := fun _ _ => rfl
  update_withId := fun _ _ _ => rfl

theorem powerSensor_lawful (n : Nat) : Lawful (powerSensorSchema K n) where
  fixed_update := fun _ _ => rfl
  wf_update := fun _ _ h => h
  sets := by
    rintro c u ⟨hd, hb⟩ _ a
    cases a
    case p i =>
      simp only [powerSensorSchema, map_assoc]
      exact updateReal_given _ _ _ _ (dir_base' hd hb)
    case q i =>
      simp only [powerSensorSchema, map_assoc]
      exact updateReal_given _ _ _ _ (dir_base' hd hb)
    all_goals exact updateReal_given _ _ _ _ (one_div_mul_cancel hb)
  inv_given := by
    intro c u a _
    cases a
    all_goals
      simp only [powerSensorSchema, map_assoc]
      exact invReal_given _ _
  inv_full := fun _ _ h => h
  accept_value := fun _ _ _ _ _ => rfl
  accept_fixed := fun _ _ _ => rfl
  ext := by
    rintro ⟨f, a, b, d, e, g⟩ ⟨f', a', b', d', e', g'⟩ ⟨hd, hb⟩ h h2
    simp only [powerSensorSchema] at h h2 hd hb
    subst h
    have ha : a = a' := by
      funext i
      have := h2 (.p i)
      simp only [map_assoc] at this
      exact givenReal_scaled_inj (mul_ne_zero (dir_ne hd) hb) this
    have hb' : b = b' := by
      funext i
      have := h2 (.q i)
      simp only [map_assoc] at this
      exact givenReal_scaled_inj (mul_ne_zero (dir_ne hd) hb) this
    have h3 : d = d' := givenReal_scaled_inj hb (h2 .powerSigma)
    have h4 : e = e' := funext fun i => givenReal_scaled_inj hb (h2 (.pSigma i))
    have h5 : g = g' := funext fun i => givenReal_scaled_inj hb (h2 (.qSigma i))
    subst_vars
    rfl
  cid_fixed := by
    intro c c' h
    exact congrArg PowerSensorFixed.id h
  uid_withId := fun _ _ => rfl
  update_withId := fun _ _ _ => rfl

theorem voltageSensor_lawful (n : Nat) : Lawful (voltageSensorSchema K n) where
  fixed_update := fun _ _ => rfl
  wf_update := fun _ _ h => h
  sets := by
    rintro c u hb _ a
    have hb : c.fixed.uNorm ≠ 0 := hb
    cases a
    · have e : ((voltageSensorClass K n).update c u).1.uSigma = updateReal u.uSigma c.uSigma (1 / c.fixed.uNorm) := by
        simp only [voltageSensorClass, VoltageSensor.update, updateReal]
        cases u.uSigma <;> simp [mul_comm]
      show givenReal (Option.map _ (VoltageSensor.uSigma _)) = _
      rw [e]
      exact updateReal_given _ _ _ _ (one_div_mul_cancel hb)
    · exact updateReal_given _ _ _ _ (one_div_mul_cancel hb)
    · exact updateReal_given1 _ _
  inv_given := by
    intro c u a _
    cases a
    all_goals exact invReal_given _ _
  inv_full := fun _ _ h => h
  accept_value := fun _ _ _ _ _ => rfl
  accept_fixed := fun _ _ _ => rfl
  ext := by
    rintro ⟨f, a, b, d⟩ ⟨f', a', b', d'⟩ hb h h2
    simp only [voltageSensorSchema] at h h2 hb
    subst h
    have h3 : a = a' := givenReal_scaled_inj hb (h2 .uSigma)
    have h4 : b = b' := funext fun i => givenReal_scaled_inj hb (h2 (.uMeasured i))
    have h5 : d = d' := funext fun i => givenReal_inj (h2 (.uAngle i))
    subst_vars
    rfl
  cid_fixed := by
    intro c c' h
    exact congrArg VoltageSensorFixed.id h
  uid_withId := fun _ _ => rfl
  update_withId := fun _ _ _ => rfl

theorem currentSensor_lawful (n : Nat) : Lawful (currentSensorSchema K n) where
  fixed_update := fun _ _ => rfl
  wf_update := fun _ _ h => h
  sets := by
    rintro c u hb _ a
    have hb : c.fixed.baseCurrent ≠ 0 := hb
    cases a
    · exact updateReal_given _ _ _ _ (one_div_mul_cancel hb)
    · exact updateReal_given1 _ _
    · exact updateReal_given _ _ _ _ (one_div_mul_cancel hb)
    · exact updateReal_given1 _ _
  inv_given := by
    intro c u a _
    cases a
    all_goals exact invReal_given _ _
  inv_full := fun _ _ h => h
  accept_value := fun _ _ _ _ _ => rfl
  accept_fixed := fun _ _ _ => rfl
  ext := by
    rintro ⟨f, a, b, d, e⟩ ⟨f', a', b', d', e'⟩ hb h h2
    simp only [currentSensorSchema] at h h2 hb
    subst h
    have h3 : a = a' := givenReal_scaled_inj hb (h2 .iSigma)
    have h6 : b = b' := givenReal_inj (h2 .iAngleSigma)
    have h4 : d = d' := funext fun i => givenReal_scaled_inj hb (h2 (.iMeasured i))
    have h5 : e = e' := funext fun i => givenReal_inj (h2 (.iAngle i))
    subst_vars
    rfl
  cid_fixed := by
    intro c c' h
    exact congrArg CurrentSensorFixed.id h
  uid_withId := fun _ _ => rfl
  update_withId := fun _ _ _ => rfl

omit [Field K] [DecidableEq K] in
theorem fault_int (x y : Int) :
    (givenInt (if x ≠ naIntS then x else y) : Option (Val K)) =
      match (givenInt x : Option (Val K)) with
      | none => givenInt y
      | some v => some v := by
  unfold givenInt naIntS
  by_cases h : x = -128 <;> simp [h]

omit [Field K] [DecidableEq K] in
theorem fault_id (x y : Int) :
    (givenID (if x ≠ naIntID then x else y) : Option (Val K)) =
      match (givenID x : Option (Val K)) with
      | none => givenID y
      | some v => some v := by
  unfold givenID naIntID
  by_cases h : x = -2147483648 <;> simp [h]

omit [Field K] [DecidableEq K] in
theorem givenInt_inj {x y : Int} (h : (givenInt x : Option (Val K)) = givenInt y) : x = y := by
  unfold givenInt at h
  by_cases hx : x = -128 <;> by_cases hy : y = -128 <;> simp_all

omit [Field K] [DecidableEq K] in
theorem givenID_inj {x y : Int} (h : (givenID x : Option (Val K)) = givenID y) : x = y := by
  unfold givenID at h
  by_cases hx : x = -2147483648 <;> by_cases hy : y = -2147483648 <;> simp_all

theorem fault_lawful : Lawful (faultSchema K) where
  fixed_update := fun _ _ => rfl
  wf_update := fun _ _ h => h
  sets := by
    intro c u _ _ a
    cases a
    · exact setStatus_given (K := K) _ _
    · exact fault_int (K := K) _ _
    · exact fault_int (K := K) _ _
    · exact fault_id (K := K) _ _
    all_goals exact assign_given _ _
  inv_given := by
    intro c u a _
    cases a
    · exact invStatus_given (K := K) _ _
    · exact invInt_given (K := K) _ _
    · exact invInt_given (K := K) _ _
    · exact invID_given (K := K) _ _
    all_goals exact invReal_given _ _
  inv_full := fun _ _ h => h
  accept_value := fun _ _ _ _ _ => rfl
  accept_fixed := fun _ _ _ => rfl
  ext := by
    rintro ⟨f, a, b, d, e, g, i⟩ ⟨f', a', b', d', e', g', i'⟩ _ h h2
    have h0 := h2 .status
    have h3 := givenInt_inj (K := K) (h2 .faultType)
    have h4 := givenInt_inj (K := K) (h2 .faultPhase)
    have h5 := givenID_inj (K := K) (h2 .faultObject)
    have h6 := givenReal_inj (h2 .rF)
    have h7 := givenReal_inj (h2 .xF)
    simp [faultSchema] at h h0
    subst_vars
    rfl
  cid_fixed := by
    intro c c' h
    exact congrArg FaultFixed.id h
  uid_withId := fun _ _ => rfl
  update_withId := fun _ _ _ => rfl

omit [Field K] [DecidableEq K] in
theorem regStatus_given (cur : Bool) (x : Int) (h : x ≠ -128) :
    (some (Val.flag (toBool x)) : Option (Val K)) =
      match (givenStatus x : Option (Val K)) with
      | none => some (.flag cur)
      | some v => some v := by
  unfold givenStatus toBool
  simp [h]

theorem invStatus_full (x : Int) (b : Bool) (h : x ≠ -128) : setIfNotNanI x (statusToInt b) ≠ -128 := by
  unfold setIfNotNanI naIntS statusToInt
  cases b <;> simp [h]

theorem tapRegulator_lawful : Lawful (tapRegulatorSchema K) where
  fixed_update := fun _ _ => rfl
  wf_update := fun _ _ h => h
  sets := by
    intro c u _ hf a
    cases a
    · exact regStatus_given (K := K) _ _ hf
    all_goals exact updateReal_given1 _ _
  inv_given := by
    intro c u a _
    cases a
    · exact invStatus_given (K := K) _ _
    all_goals exact invReal_given _ _
  inv_full := fun _ _ h => invStatus_full _ _ h
  accept_value := fun _ _ _ _ _ => rfl
  accept_fixed := fun _ _ _ => rfl
  ext := by
    rintro ⟨f, a, b, d, e, g⟩ ⟨f', a', b', d', e', g'⟩ _ h h2
    have h0 := h2 .status
    have h3 := givenReal_inj (h2 .uSet)
    have h4 := givenReal_inj (h2 .uBand)
    have h5 := givenReal_inj (h2 .ldcR)
    have h6 := givenReal_inj (h2 .ldcX)
    simp [tapRegulatorSchema] at h h0
    subst_vars
    rfl
  cid_fixed := by
    intro c c' h
    exact congrArg RegulatorFixed.id h
  uid_withId := fun _ _ => rfl
  update_withId := fun _ _ _ => rfl

theorem voltageRegulator_lawful : Lawful (voltageRegulatorSchema K) where
  fixed_update := fun _ _ => rfl
  wf_update := fun _ _ h => h
  sets := by
    intro c u _ hf a
    cases a
    · exact regStatus_given (K := K) _ _ hf
    all_goals exact assign_given _ _
  inv_given := by
    intro c u a _
    cases a
    · exact invStatus_given (K := K) _ _
    all_goals exact invReal_given _ _
  inv_full := fun _ _ h => invStatus_full _ _ h
  accept_value := fun _ _ _ _ _ => rfl
  accept_fixed := fun _ _ _ => rfl
  ext := by
    rintro ⟨f, a, b, d, e⟩ ⟨f', a', b', d', e'⟩ _ h h2
    have h0 := h2 .status
    have h3 := givenReal_inj (h2 .uRef)
    have h4 := givenReal_inj (h2 .qMin)
    have h5 := givenReal_inj (h2 .qMax)
    simp [voltageRegulatorSchema] at h h0
    subst_vars
    rfl
  cid_fixed := by
    intro c c' h
    exact congrArg RegulatorFixed.id h
  uid_withId := fun _ _ => rfl
  update_withId := fun _ _ _ => rfl

/-- Every component type is lawful. -/
theorem lawfulOf : (t : CompType) → Lawful (schemaOf K t)
  | .node => node_lawful
  | .line | .asymLine | .link | .genericBranch => branch_lawful
  | .transformer => transformer_lawful
  | .threeWindingTransformer => transformer3_lawful
  | .shunt => shunt_lawful
  | .source => source_lawful
  | .symGen | .symLoad => loadGen_lawful 1
  | .asymGen | .asymLoad => loadGen_lawful 3
  | .symPowerSensor => powerSensor_lawful 1
  | .asymPowerSensor => powerSensor_lawful 3
  | .symVoltageSensor => voltageSensor_lawful 1
  | .asymVoltageSensor => voltageSensor_lawful 3
  | .symCurrentSensor => currentSensor_lawful 1
  | .asymCurrentSensor => currentSensor_lawful 3
  | .fault => fault_lawful
  | .tapRegulator => tapRegulator_lawful
  | .voltageRegulator => voltageRegulator_lawful

end PGM.Update
