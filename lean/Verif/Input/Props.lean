import Verif.Input.Model
import Verif.Container.Props

/-!
# C42: references between components are validated when a model is built
-/

namespace PGM.Input

open PGM.Container PGM.Update

variable {K : Type}

/-! ## Specification -/

/-- What an element refers to: the ID and the component types that are allowed for it. The terminal types of power
and current sensors are 0, 1: from/to side of a branch, 2: source, 3: shunt, 4: load, 5: generator, 6-8: side of a
three-winding transformer, 9: node. -/
def refs (t : CompType) (e : Elem K) : List (Int × List CompType) :=
  let branches : List CompType := [.line, .asymLine, .genericBranch, .transformer]
  match t with
  | .node => []
  | .line | .asymLine | .link | .genericBranch | .transformer => [(e.n1, [.node]), (e.n2, [.node])]
  | .threeWindingTransformer => [(e.n1, [.node]), (e.n2, [.node]), (e.n3, [.node])]
  | .shunt | .source | .symGen | .asymGen | .symLoad | .asymLoad => [(e.n1, [.node])]
  | .symVoltageSensor | .asymVoltageSensor => [(e.object, [.node])]
  | .symPowerSensor | .asymPowerSensor =>
    [(e.object,
      if e.terminal = 0 ∨ e.terminal = 1 then branches
      else if e.terminal = 2 then [.source]
      else if e.terminal = 3 then [.shunt]
      else if e.terminal = 4 then [.symLoad, .asymLoad]
      else if e.terminal = 5 then [.symGen, .asymGen]
      else if e.terminal = 6 ∨ e.terminal = 7 ∨ e.terminal = 8 then [.threeWindingTransformer]
      else if e.terminal = 9 then [.node]
      else [])]
  | .symCurrentSensor | .asymCurrentSensor =>
    [(e.object,
      if e.terminal = 0 ∨ e.terminal = 1 then branches
      else if e.terminal = 6 ∨ e.terminal = 7 ∨ e.terminal = 8 then [.threeWindingTransformer]
      else [])]
  | .fault => [(e.object, [.node])]
  | .tapRegulator =>
    [(e.object,
      if e.side = 0 ∨ e.side = 1 then [.transformer, .threeWindingTransformer]
      else if e.side = 2 then [.threeWindingTransformer]
      else [])]
  | .voltageRegulator => [(e.object, [.symGen, .asymGen, .symLoad, .asymLoad])]

/-- The dataset has a component with this ID of one of these types. -/
def Present (D : CompType → List (Elem K)) (id : Int) (types : List CompType) : Prop :=
  ∃ t ∈ types, ∃ e ∈ D t, e.id = id

/-- The dataset has a node with this ID and this rated voltage. -/
def Rated (D : CompType → List (Elem K)) (id : Int) (u : K) : Prop := ∃ e ∈ D .node, e.id = id ∧ e.uRated = u

/-- The component type's own check of its data, given the rated voltages of its nodes. -/
def DataOk (D : CompType → List (Elem K)) (t : CompType) (e : Elem K) : Prop :=
  match t with
  | .line | .asymLine | .link | .genericBranch | .transformer =>
    ∀ u1 u2, Rated D e.n1 u1 → Rated D e.n2 u2 → e.ctor [u1, u2] = .ok ()
  | .threeWindingTransformer =>
    ∀ u1 u2 u3, Rated D e.n1 u1 → Rated D e.n2 u2 → Rated D e.n3 u3 → e.ctor [u1, u2, u3] = .ok ()
  | .fault => e.ctor [] = .ok ()
  | _ => True

/-- All IDs of a dataset. -/
def ids (D : CompType → List (Elem K)) : List Int := allTypes.flatMap fun t => (D t).map (·.id)

/-- A dataset from which a model can be built. -/
structure Valid (D : CompType → List (Elem K)) : Prop where
  unique : (ids D).Nodup
  resolved : ∀ t, ∀ e ∈ D t, ∀ r ∈ refs t e, Present D r.1 r.2
  data : ∀ t, ∀ e ∈ D t, DataOk D t e
  tapRegulators : ((D .tapRegulator).map (·.object)).Nodup
  voltageRegulators : ((D .voltageRegulator).map (·.object)).Nodup

/-- What an error says about the dataset: which element is at fault and why. Errors that carry an ID carry the ID that
is duplicated or that could not be resolved. -/
def Explains (D : CompType → List (Elem K)) (t : CompType) (e : Elem K) : AddErr → Prop
  | .container (.conflictID id) => id = e.id ∧ ¬ (ids D).Nodup
  | .container (.idNotFound id) => ∃ ts, (id, ts) ∈ refs t e ∧ ¬ Present D id ts
  | .container (.idWrongType id) => ∃ ts, (id, ts) ∈ refs t e ∧ ¬ Present D id ts
  | .container (.ctor _) => ¬ DataOk D t e
  | .container .undefined => False
  | .invalidMeasuredObject => Present D e.object [.link] ∧ ∃ ts, (e.object, ts) ∈ refs t e ∧ ¬ Present D e.object ts
  | .missingCaseForEnum v => (v = e.terminal ∨ v = e.side) ∧ ∃ ts, (e.object, ts) ∈ refs t e ∧ ¬ Present D e.object ts
  | .invalidRegulatedObject id => ∃ ts, (id, ts) ∈ refs t e ∧ ¬ Present D id ts
  | .duplicativelyRegulatedObject => (t = .tapRegulator ∨ t = .voltageRegulator) ∧ ¬ ((D t).map (·.object)).Nodup

/-! ## Lemmas -/

theorem group_lt (t : CompType) : group t < 22 := by cases t <;> decide

theorem group_inj : ∀ t t' : CompType, group t = group t' → t = t' := by
  intro t t'; cases t <;> cases t' <;> first | (intro _; rfl) | (intro h; exact absurd h (by decide))

theorem mem_allTypes (t : CompType) : t ∈ allTypes := by cases t <;> decide

theorem allTypes_get : ∀ t : CompType, allTypes[group t]? = some t := by intro t; cases t <;> rfl

theorem allTypes_nodup : allTypes.Nodup := by decide

theorem mem_of_group_lt (pre post : List CompType) (t : CompType) (h : allTypes = pre ++ t :: post) (t' : CompType)
    (hlt : group t' < group t) : t' ∈ pre := by
  have hlen : pre.length = group t := by
    have h1 : allTypes[pre.length]? = some t := by rw [h]; simp
    have h2 := allTypes_get t
    have hl : allTypes.length = 22 := by decide
    have hp : pre.length < allTypes.length := by rw [h]; simp
    have := (List.getElem?_inj hp allTypes_nodup).mp (h1.trans h2.symm)
    exact this
  have h3 := allTypes_get t'
  rw [h, List.getElem?_append_left (by omega)] at h3
  exact List.mem_of_getElem? h3

def toComp (p : CompType × Elem K) : Comp K := ⟨p.1, p.2⟩

/-- The registry of a list of inserted components. -/
def regOf (L : List (CompType × Elem K)) : Reg (Comp K) :=
  fun id => (L.find? (fun p => p.2.id == id)).map (fun p => (group p.1, toComp p))

structure Inv (c : Container (Comp K)) (L : List (CompType × Elem K)) : Prop where
  ref : Refines 22 c (regOf L)
  vec : ∀ t, c.vectors[group t]? = some ((L.filter (fun p => p.1 = t)).map toComp)
  nodup : (L.map (·.2.id)).Nodup

theorem inv_empty : Inv (Container.empty 22 : Container (Comp K)) [] := by
  refine ⟨refines_empty 22, ?_, by simp⟩
  intro t
  have := group_lt t
  simp only [Container.empty]
  rw [List.getElem?_replicate]
  simp [this]

theorem find_some {L : List (CompType × Elem K)} {id : Int} {p : CompType × Elem K}
    (h : L.find? (fun p => p.2.id == id) = some p) : p ∈ L ∧ p.2.id = id := by
  refine ⟨List.mem_of_find?_eq_some h, ?_⟩
  have := List.find?_some h
  simpa using this

theorem find_none {L : List (CompType × Elem K)} {id : Int}
    (h : L.find? (fun p => p.2.id == id) = none) : ∀ p ∈ L, p.2.id ≠ id := by
  intro p hp
  have := List.find?_eq_none.mp h p hp
  simpa using this

theorem unique_of_nodup {L : List (CompType × Elem K)} (h : (L.map (·.2.id)).Nodup) {p q : CompType × Elem K}
    (hp : p ∈ L) (hq : q ∈ L) (he : p.2.id = q.2.id) : p = q :=
  List.inj_on_of_nodup_map h hp hq he

theorem getById_ok {c : Container (Comp K)} {L : List (CompType × Elem K)} (hi : Inv c L) {g : Gettable} {id : Int}
    {x : Comp K} (h : getById g c id = .ok x) :
    (x.type, x.elem) ∈ L ∧ x.elem.id = id ∧ isBase g (group x.type) = true := by
  unfold getById at h
  rw [getItemById_refines isBase g 22 c (regOf L) hi.ref id] at h
  unfold Reg.lookup regOf at h
  cases hf : L.find? (fun p => p.2.id == id) with
  | none => simp [hf] at h
  | some p =>
    obtain ⟨h1, h2⟩ := find_some hf
    simp only [hf, Option.map_some] at h
    by_cases hb : isBase g (group p.1) = true
    · simp only [hb, if_true] at h
      have := Except.ok.inj h
      subst this
      exact ⟨h1, h2, hb⟩
    · simp [hb] at h

theorem getById_err {c : Container (Comp K)} {L : List (CompType × Elem K)} (hi : Inv c L) {g : Gettable} {id : Int}
    {err : AddErr} (h : getById g c id = .error err) :
    (err = .container (.idNotFound id) ∨ err = .container (.idWrongType id)) ∧
      ∀ p ∈ L, p.2.id = id → isBase g (group p.1) = false := by
  unfold getById at h
  rw [getItemById_refines isBase g 22 c (regOf L) hi.ref id] at h
  unfold Reg.lookup regOf at h
  cases hf : L.find? (fun p => p.2.id == id) with
  | none =>
    simp only [hf, Option.map_none, Except.error.injEq] at h
    exact ⟨.inl h.symm, fun p hp he => absurd he (find_none hf p hp)⟩
  | some p =>
    obtain ⟨h1, h2⟩ := find_some hf
    simp only [hf, Option.map_some] at h
    by_cases hb : isBase g (group p.1) = true
    · simp [hb] at h
    · simp only [hb, if_false, Except.error.injEq] at h
      refine ⟨.inr ?_, ?_⟩
      · simpa using h.symm
      · intro q hq he
        have := unique_of_nodup hi.nodup hq h1 (he.trans h2.symm)
        subst this
        simpa using hb

theorem idxById_ok {c : Container (Comp K)} {L : List (CompType × Elem K)} (hi : Inv c L) {id : Int} {idx : Idx2D}
    (h : idxById c id = .ok idx) :
    c.map id = some idx ∧ ∃ p ∈ L, p.2.id = id ∧ idx.group = group p.1 ∧
      ∀ g, isBase g (group p.1) = true → getByIdx g c idx = .ok (toComp p) := by
  unfold idxById getIdxById at h
  cases hm : c.map id with
  | none => simp [hm] at h
  | some i =>
    simp only [hm] at h
    have := Except.ok.inj h
    subst this
    obtain ⟨vec, x, h1, h2, h3⟩ := hi.ref.some_val id i hm
    unfold regOf at h3
    cases hf : L.find? (fun p => p.2.id == id) with
    | none => simp [hf] at h3
    | some p =>
      obtain ⟨h4, h5⟩ := find_some hf
      simp only [hf, Option.map_some, Option.some.injEq, Prod.mk.injEq] at h3
      obtain ⟨h6, h7⟩ := h3
      refine ⟨rfl, p, h4, h5, h6.symm, ?_⟩
      intro g hg
      unfold getByIdx getItem
      rw [h6] at hg
      simp only [hg, if_true, h1, h2, h7]

theorem idxById_err {c : Container (Comp K)} {L : List (CompType × Elem K)} (hi : Inv c L) {id : Int} {err : AddErr}
    (h : idxById c id = .error err) : err = .container (.idNotFound id) ∧ ∀ p ∈ L, p.2.id ≠ id := by
  unfold idxById getIdxById at h
  cases hm : c.map id with
  | some i => simp [hm] at h
  | none =>
    simp only [hm, Except.error.injEq] at h
    refine ⟨h.symm, ?_⟩
    have hr := (hi.ref.none_iff id).mp hm
    unfold regOf at hr
    cases hf : L.find? (fun p => p.2.id == id) with
    | some p => simp [hf] at hr
    | none => exact find_none hf

theorem emplace_vectors {c c' : Container (Comp K)} {id : Int} {g : Nat} {ctor : Except String (Comp K)}
    (h : emplace c id g ctor = .ok c') :
    ∃ vec x, c.vectors[g]? = some vec ∧ ctor = .ok x ∧ c.map id = none ∧ c'.vectors = c.vectors.set g (vec ++ [x]) := by
  unfold emplace at h
  cases hm : c.map id with
  | some i => simp [hm] at h
  | none =>
    cases hv : c.vectors[g]? with
    | none => simp [hm, hv] at h
    | some vec =>
      cases hc : ctor with
      | error e => simp [hm, hv, hc] at h
      | ok x =>
        simp only [hm, hv, hc] at h
        have := Except.ok.inj h
        subst this
        exact ⟨vec, x, rfl, rfl, rfl, rfl⟩

theorem emplaceComp_ok {c c' : Container (Comp K)} {L : List (CompType × Elem K)} (hi : Inv c L) {t : CompType}
    {e : Elem K} {ctor : Except String Unit} (h : emplaceComp c t e ctor = .ok c') :
    ctor = .ok () ∧ Inv c' (L ++ [(t, e)]) := by
  unfold emplaceComp at h
  cases he : emplace c e.id (group t) (ctor.map fun _ => (⟨t, e⟩ : Comp K)) with
  | error err => simp [he] at h
  | ok c1 =>
    simp only [he] at h
    have := Except.ok.inj h
    subst this
    obtain ⟨vec, x, h1, h2, h3, h4⟩ := emplace_vectors he
    have hx : ctor = .ok () ∧ x = ⟨t, e⟩ := by
      cases hc : ctor with
      | error m => simp [hc, Except.map] at h2
      | ok u => simp only [hc, Except.map, Except.ok.injEq] at h2; exact ⟨rfl, h2.symm⟩
    obtain ⟨hctor, rfl⟩ := hx
    have hfresh : ∀ p ∈ L, p.2.id ≠ e.id := by
      have hr := (hi.ref.none_iff e.id).mp h3
      unfold regOf at hr
      cases hf : L.find? (fun p => p.2.id == e.id) with
      | some p => simp [hf] at hr
      | none => exact find_none hf
    refine ⟨hctor, ?_, ?_, ?_⟩
    · have := emplace_refines 22 c (regOf L) hi.ref ⟨e.id, group t, .ok ⟨t, e⟩⟩ (group_lt t)
      have he' : emplace c e.id (group t) (.ok ⟨t, e⟩) = .ok c1 := by
        rw [hctor] at he; exact he
      simp only [he'] at this
      have hr := (hi.ref.none_iff e.id).mp h3
      simp only [Reg.insert, hr] at this
      have heq : (fun i => if i = e.id then some (group t, (⟨t, e⟩ : Comp K)) else regOf L i) =
          regOf (L ++ [(t, e)]) := by
        funext i
        unfold regOf
        rw [List.find?_append]
        by_cases hie : i = e.id
        · subst hie
          have : L.find? (fun p => p.2.id == e.id) = none := by
            rw [List.find?_eq_none]
            intro p hp
            simpa using hfresh p hp
          simp [this, toComp]
        · have hne : (e.id == i) = false := by simpa using fun h => hie h.symm
          simp [hie, hne]
      rw [← heq]
      exact this
    · intro t'
      rw [h4, List.getElem?_set]
      have hlen : group t < c.vectors.length := by rw [hi.ref.len]; exact group_lt t
      by_cases hg : group t = group t'
      · have := group_inj t t' hg
        subst this
        have hv := hi.vec t
        rw [h1] at hv
        have := Option.some.inj hv
        subst this
        simp [hlen, toComp]
      · have hne : ¬ t = t' := fun h => hg (by rw [h])
        simp [hg, hi.vec t', hne]
    · rw [List.map_append, List.nodup_append]
      refine ⟨hi.nodup, by simp, ?_⟩
      intro a ha b hb
      obtain ⟨p, hp, rfl⟩ := List.mem_map.mp ha
      simp only [List.map_cons, List.map_nil, List.mem_singleton] at hb
      subst hb
      exact hfresh p hp

theorem emplaceComp_err {c : Container (Comp K)} {L : List (CompType × Elem K)} (hi : Inv c L) {t : CompType}
    {e : Elem K} {ctor : Except String Unit} {err : AddErr} (h : emplaceComp c t e ctor = .error err) :
    (err = .container (.conflictID e.id) ∧ ∃ p ∈ L, p.2.id = e.id) ∨
      ∃ m, err = .container (.ctor m) ∧ ctor = .error m := by
  unfold emplaceComp emplace at h
  cases hm : c.map e.id with
  | some i =>
    simp only [hm, Except.error.injEq] at h
    left
    refine ⟨h.symm, ?_⟩
    obtain ⟨vec, x, h1, h2, h3⟩ := hi.ref.some_val e.id i hm
    unfold regOf at h3
    cases hf : L.find? (fun p => p.2.id == e.id) with
    | none => simp [hf] at h3
    | some p => exact ⟨p, find_some hf⟩
  | none =>
    right
    simp only [hm, hi.vec t] at h
    cases hc : ctor with
    | ok u => simp [hc, Except.map] at h
    | error m =>
      simp only [hc, Except.map, Except.error.injEq] at h
      exact ⟨m, h.symm, rfl⟩

/-- Facts available while the element `e` of type `t` is processed after the components `L`. -/
structure Ctx (D : CompType → List (Elem K)) (c : Container (Comp K)) (L : List (CompType × Elem K)) (t : CompType)
    (e : Elem K) : Prop where
  inv : Inv c L
  mem : e ∈ D t
  sub : ∀ p ∈ L, p.2 ∈ D p.1
  full : ∀ t', group t' < group t → ∀ e' ∈ D t', (t', e') ∈ L
  valid : ∀ p ∈ L, (∀ r ∈ refs p.1 p.2, Present D r.1 r.2)
  conflict : (∃ p ∈ L, p.2.id = e.id) → ¬ (ids D).Nodup

section step
variable {D : CompType → List (Elem K)} {c : Container (Comp K)} {L : List (CompType × Elem K)} {t : CompType}
  {e : Elem K}

/-- A successful typed look-up means that the component is in the dataset. -/
theorem present_of_ok (X : Ctx D c L t e) {g : Gettable} {id : Int} {x : Comp K} (h : getById g c id = .ok x)
    (ts : List CompType) (hts : ∀ t', isBase g (group t') = true → (x.type = t' → t' ∈ ts)) : Present D id ts := by
  obtain ⟨h1, h2, h3⟩ := getById_ok X.inv h
  exact ⟨x.type, hts _ h3 rfl, x.elem, X.sub _ h1, h2⟩

theorem absent_of_err (X : Ctx D c L t e) {g : Gettable} {id : Int} {err : AddErr} (h : getById g c id = .error err)
    (ts : List CompType) (hts : ∀ t' ∈ ts, isBase g (group t') = true ∧ group t' < group t) :
    ¬ Present D id ts := by
  rintro ⟨t', ht', e', he', rfl⟩
  obtain ⟨_, h2⟩ := getById_err X.inv h
  have := h2 (t', e') (X.full t' (hts t' ht').2 e' he') rfl
  simp only at this
  rw [(hts t' ht').1] at this
  cases this

theorem absent_of_idx_err (X : Ctx D c L t e) {id : Int} {err : AddErr} (h : idxById c id = .error err)
    (ts : List CompType) (hts : ∀ t' ∈ ts, group t' < group t) : ¬ Present D id ts := by
  rintro ⟨t', ht', e', he', rfl⟩
  exact (idxById_err X.inv h).2 (t', e') (X.full t' (hts t' ht') e' he') rfl

/-- If the ID belongs to a component of an earlier type that is not allowed, no allowed component has it. -/
theorem absent_of_other (X : Ctx D c L t e) {id : Int} {p : CompType × Elem K} (hp : p ∈ L) (hid : p.2.id = id)
    (ts : List CompType) (hts : ∀ t' ∈ ts, group t' < group t) (hnot : p.1 ∉ ts) : ¬ Present D id ts := by
  rintro ⟨t', ht', e', he', rfl⟩
  have := unique_of_nodup X.inv.nodup hp (X.full t' (hts t' ht') e' he') hid
  subst this
  exact hnot ht'

theorem rated_of_ok (X : Ctx D c L t e) {id : Int} {u : K} (h : nodeURated c id = .ok u) :
    Rated D id u ∧ Present D id [.node] := by
  unfold nodeURated at h
  cases hg : getById .node c id with
  | error err => simp [hg, bind, Except.bind] at h
  | ok x =>
    simp only [hg, bind, Except.bind, pure, Except.pure, Except.ok.injEq] at h
    obtain ⟨h1, h2, h3⟩ := getById_ok X.inv hg
    have ht : x.type = .node := by
      apply group_inj
      simpa [isBase, group] using h3
    have hm := X.sub _ h1
    simp only [ht] at hm
    exact ⟨⟨x.elem, hm, h2, h⟩, ⟨.node, by simp, x.elem, hm, h2⟩⟩

theorem rated_err (X : Ctx D c L t e) (hpos : 0 < group t) {id : Int} {err : AddErr}
    (h : nodeURated c id = .error err) :
    (err = .container (.idNotFound id) ∨ err = .container (.idWrongType id)) ∧ ¬ Present D id [.node] := by
  unfold nodeURated at h
  cases hg : getById .node c id with
  | ok x => simp [hg, bind, Except.bind, pure, Except.pure] at h
  | error err' =>
    simp only [hg, bind, Except.bind, Except.error.injEq] at h
    subst h
    refine ⟨(getById_err X.inv hg).1, absent_of_err X hg [.node] ?_⟩
    simpa [isBase, group] using hpos

theorem rated_unique (X : Ctx D c L t e) (hpos : 0 < group t) {id : Int} {u v : K} (h : Rated D id u)
    (h' : Rated D id v) : u = v := by
  obtain ⟨e1, m1, i1, rfl⟩ := h
  obtain ⟨e2, m2, i2, rfl⟩ := h'
  have hp : group .node < group t := by simpa [group] using hpos
  have := unique_of_nodup X.inv.nodup (X.full .node hp e1 m1) (X.full .node hp e2 m2) (i1.trans i2.symm)
  simp only [Prod.mk.injEq, true_and] at this
  rw [this]


/-- The outcome of inserting an element whose references are resolved. -/
theorem emplace_outcome (X : Ctx D c L t e) {ctor : Except String Unit} (hd : ctor = .ok () → DataOk D t e)
    (hn : ∀ m, ctor = .error m → ¬ DataOk D t e) (hr : ∀ r ∈ refs t e, Present D r.1 r.2) :
    match emplaceComp c t e ctor with
    | .ok c' => (∀ r ∈ refs t e, Present D r.1 r.2) ∧ DataOk D t e ∧ Inv c' (L ++ [(t, e)])
    | .error err => Explains D t e err := by
  cases h : emplaceComp c t e ctor with
  | ok c' =>
    obtain ⟨h1, h2⟩ := emplaceComp_ok X.inv h
    exact ⟨hr, hd h1, h2⟩
  | error err =>
    rcases emplaceComp_err X.inv h with ⟨rfl, h2⟩ | ⟨m, rfl, h2⟩
    · exact ⟨rfl, X.conflict h2⟩
    · exact hn m h2

/-- What one pass of the loop establishes. -/
def Outcome (D : CompType → List (Elem K)) (L : List (CompType × Elem K)) (t : CompType) (e : Elem K) :
    Res (Container (Comp K)) → Prop
  | .ok c' => (∀ r ∈ refs t e, Present D r.1 r.2) ∧ DataOk D t e ∧ Inv c' (L ++ [(t, e)])
  | .error err => Explains D t e err

theorem outcome_emplace (X : Ctx D c L t e) {ctor : Except String Unit} (hd : ctor = .ok () → DataOk D t e)
    (hn : ∀ m, ctor = .error m → ¬ DataOk D t e) (hr : ∀ r ∈ refs t e, Present D r.1 r.2) :
    Outcome D L t e (emplaceComp c t e ctor) := by
  have := emplace_outcome X hd hn hr
  unfold Outcome
  exact this

theorem outcome_bind {α : Type} {x : Res α} {f : α → Res (Container (Comp K))}
    (he : ∀ err, x = .error err → Explains D t e err) (ho : ∀ a, x = .ok a → Outcome D L t e (f a)) :
    Outcome D L t e (x >>= f) := by
  cases hx : x with
  | error err => exact he err hx
  | ok a => exact ho a hx

theorem explains_rated (X : Ctx D c L t e) (hpos : 0 < group t) {id : Int} (hr : (id, [CompType.node]) ∈ refs t e)
    {err : AddErr} (h : nodeURated c id = .error err) : Explains D t e err := by
  obtain ⟨h1 | h1, h2⟩ := rated_err X hpos h
  · subst h1; exact ⟨_, hr, h2⟩
  · subst h1; exact ⟨_, hr, h2⟩

theorem outcome_branch (X : Ctx D c L t e) (hk : kind t = .branch) : Outcome D L t e (addPlain c t e) := by
  have hpos : 0 < group t := by cases t <;> first | decide | (exact absurd hk (by decide))
  have hrefs : refs t e = [(e.n1, [.node]), (e.n2, [.node])] := by
    cases t <;> first | rfl | (exact absurd hk (by decide))
  have hdata : DataOk D t e = (∀ u1 u2, Rated D e.n1 u1 → Rated D e.n2 u2 → e.ctor [u1, u2] = .ok ()) := by
    cases t <;> first | rfl | (exact absurd hk (by decide))
  unfold addPlain
  rw [hk]
  refine outcome_bind (fun err h => explains_rated X hpos (by simp [hrefs]) h) fun u1 h1 => ?_
  refine outcome_bind (fun err h => explains_rated X hpos (by simp [hrefs]) h) fun u2 h2 => ?_
  obtain ⟨r1, p1⟩ := rated_of_ok X h1
  obtain ⟨r2, p2⟩ := rated_of_ok X h2
  refine outcome_emplace X ?_ ?_ ?_
  · intro hc
    rw [hdata]
    intro v1 v2 hv1 hv2
    rw [rated_unique X hpos hv1 r1, rated_unique X hpos hv2 r2]
    exact hc
  · intro m hc
    rw [hdata]
    intro hall
    have := hall u1 u2 r1 r2
    rw [hc] at this
    cases this
  · rw [hrefs]
    intro r hr
    simp only [List.mem_cons, List.not_mem_nil, or_false] at hr
    rcases hr with rfl | rfl
    · exact p1
    · exact p2

theorem outcome_branch3 (X : Ctx D c L t e) (hk : kind t = .branch3) : Outcome D L t e (addPlain c t e) := by
  have ht : t = .threeWindingTransformer := by cases t <;> first | rfl | (exact absurd hk (by decide))
  subst ht
  have hpos : 0 < group .threeWindingTransformer := by decide
  show Outcome D L _ e (nodeURated c e.n1 >>= fun u1 => nodeURated c e.n2 >>= fun u2 => nodeURated c e.n3 >>= fun u3 =>
    emplaceComp c _ e (e.ctor [u1, u2, u3]))
  refine outcome_bind (fun err h => explains_rated X hpos (by simp [refs]) h) fun u1 h1 => ?_
  refine outcome_bind (fun err h => explains_rated X hpos (by simp [refs]) h) fun u2 h2 => ?_
  refine outcome_bind (fun err h => explains_rated X hpos (by simp [refs]) h) fun u3 h3 => ?_
  obtain ⟨r1, p1⟩ := rated_of_ok X h1
  obtain ⟨r2, p2⟩ := rated_of_ok X h2
  obtain ⟨r3, p3⟩ := rated_of_ok X h3
  refine outcome_emplace X ?_ ?_ ?_
  · intro hc v1 v2 v3 hv1 hv2 hv3
    rw [rated_unique X hpos hv1 r1, rated_unique X hpos hv2 r2, rated_unique X hpos hv3 r3]
    exact hc
  · intro m hc hall
    have := hall u1 u2 u3 r1 r2 r3
    rw [hc] at this
    cases this
  · intro r hr
    simp only [refs, List.mem_cons, List.not_mem_nil, or_false] at hr
    rcases hr with rfl | rfl | rfl
    · exact p1
    · exact p2
    · exact p3

/-- The types with a single node reference. -/
theorem outcome_one (X : Ctx D c L t e) (id : Int) (ctor : Except String Unit) (hpos : 0 < group t)
    (hrefs : refs t e = [(id, [.node])]) (hd : ctor = .ok () → DataOk D t e)
    (hn : ∀ m, ctor = .error m → ¬ DataOk D t e) :
    Outcome D L t e (nodeURated c id >>= fun _ => emplaceComp c t e ctor) := by
  refine outcome_bind (fun err h => explains_rated X hpos (by simp [hrefs]) h) fun u1 h1 => ?_
  obtain ⟨_, p1⟩ := rated_of_ok X h1
  refine outcome_emplace X hd hn ?_
  rw [hrefs]
  intro r hr
  simp only [List.mem_cons, List.not_mem_nil, or_false] at hr
  subst hr
  exact p1

theorem outcome_appliance (X : Ctx D c L t e) (hk : kind t = .appliance) : Outcome D L t e (addPlain c t e) := by
  unfold addPlain
  rw [hk]
  refine outcome_one X e.n1 (.ok ()) ?_ ?_ ?_ (by intro m h; cases h)
  · cases t <;> first | decide | (exact absurd hk (by decide))
  · cases t <;> first | rfl | (exact absurd hk (by decide))
  · intro _; cases t <;> first | exact trivial | (exact absurd hk (by decide))

theorem outcome_voltageSensor (X : Ctx D c L t e) (hk : kind t = .voltageSensor) :
    Outcome D L t e (addPlain c t e) := by
  unfold addPlain
  rw [hk]
  refine outcome_one X e.object (.ok ()) ?_ ?_ ?_ (by intro m h; cases h)
  · cases t <;> first | decide | (exact absurd hk (by decide))
  · cases t <;> first | rfl | (exact absurd hk (by decide))
  · intro _; cases t <;> first | exact trivial | (exact absurd hk (by decide))

theorem outcome_fault (X : Ctx D c L t e) (hk : kind t = .fault) : Outcome D L t e (addPlain c t e) := by
  have ht : t = .fault := by cases t <;> first | rfl | (exact absurd hk (by decide))
  subst ht
  show Outcome D L _ e (nodeURated c e.object >>= fun _ => emplaceComp c _ e (e.ctor []))
  refine outcome_one X e.object (e.ctor []) (by decide) rfl (fun h => h) ?_
  intro m h hd
  have hd' : e.ctor [] = .ok () := hd
  rw [h] at hd'
  cases hd'

/-- A reference looked up in the container as type `g`, allowed types `ts`. -/
theorem outcome_switch (X : Ctx D c L t e) {g : Gettable} {ts : List CompType} {id : Int} {α : Type}
    {f : Comp K → α} {k : α → Res (Container (Comp K))} (hrefs : (id, ts) ∈ refs t e)
    (hts : ∀ t' ∈ ts, isBase g (group t') = true ∧ group t' < group t)
    (hcov : ∀ t', isBase g (group t') = true → t' ∈ ts ∨ ∀ p ∈ L, p.2.id = id → p.1 ≠ t')
    (hk : ∀ x, getById g c id = .ok x → Present D id ts → Outcome D L t e (k (f x))) :
    Outcome D L t e (((getById g c id).map f) >>= k) := by
  cases h : getById g c id with
  | error err =>
    obtain ⟨h1, _⟩ := getById_err X.inv h
    have h2 := absent_of_err X h ts hts
    rcases h1 with rfl | rfl
    · exact ⟨_, hrefs, h2⟩
    · exact ⟨_, hrefs, h2⟩
  | ok x =>
    refine hk x h (present_of_ok X h ts ?_)
    intro t' hb ht'
    obtain ⟨h1, h2, _⟩ := getById_ok X.inv h
    rcases hcov t' hb with h3 | h3
    · exact h3
    · exact absurd ht' (h3 _ h1 h2)

/-- The link check: afterwards the object is a component of another type that was inserted earlier. -/
theorem outcome_notLink (X : Ctx D c L t e) {k : Unit → Res (Container (Comp K))} (ts : List CompType)
    (hrefs : (e.object, ts) ∈ refs t e) (hl : CompType.link ∉ ts) (hts : ∀ t' ∈ ts, group t' < group t)
    (hk : (∀ p ∈ L, p.2.id = e.object → p.1 ≠ .link) → Outcome D L t e (k ())) :
    Outcome D L t e (checkNotLink c e.object >>= k) := by
  unfold checkNotLink
  cases h : idxById c e.object with
  | error err =>
    obtain ⟨rfl, _⟩ := idxById_err X.inv h
    exact ⟨_, hrefs, absent_of_idx_err X h ts hts⟩
  | ok idx =>
    obtain ⟨_, p, hp, hid, hgr, _⟩ := idxById_ok X.inv h
    by_cases hlk : idx.group = group .link
    · simp only [bind, Except.bind, hlk, if_true]
      have hpl : p.1 = .link := group_inj _ _ (by rw [← hgr, hlk])
      refine ⟨⟨.link, by simp, p.2, ?_, hid⟩, ts, hrefs, ?_⟩
      · have := X.sub p hp
        rw [hpl] at this
        exact this
      · exact absent_of_other X hp hid ts hts (by rw [hpl]; exact hl)
    · simp only [bind, Except.bind, hlk, if_false, pure, Except.pure]
      refine hk ?_
      intro q hq hqid hql
      have := unique_of_nodup X.inv.nodup hp hq (hid.trans hqid.symm)
      subst this
      exact hlk (by rw [hgr, hql])

theorem outcome_node (X : Ctx D c L t e) (hk : kind t = .node) : Outcome D L t e (addPlain c t e) := by
  have ht : t = .node := by cases t <;> first | rfl | (exact absurd hk (by decide))
  subst ht
  exact outcome_emplace X (fun _ => trivial) (by intro m h; cases h) (by intro r hr; simp [refs] at hr)

theorem refs_power (hk : kind t = .powerSensor) : refs t e =
    [(e.object,
      if e.terminal = 0 ∨ e.terminal = 1 then [.line, .asymLine, .genericBranch, .transformer]
      else if e.terminal = 2 then [.source]
      else if e.terminal = 3 then [.shunt]
      else if e.terminal = 4 then [.symLoad, .asymLoad]
      else if e.terminal = 5 then [.symGen, .asymGen]
      else if e.terminal = 6 ∨ e.terminal = 7 ∨ e.terminal = 8 then [.threeWindingTransformer]
      else if e.terminal = 9 then [.node]
      else [])] := by
  cases t <;> first | rfl | (exact absurd hk (by decide))

theorem refs_current (hk : kind t = .currentSensor) : refs t e =
    [(e.object,
      if e.terminal = 0 ∨ e.terminal = 1 then [.line, .asymLine, .genericBranch, .transformer]
      else if e.terminal = 6 ∨ e.terminal = 7 ∨ e.terminal = 8 then [.threeWindingTransformer]
      else [])] := by
  cases t <;> first | rfl | (exact absurd hk (by decide))

theorem sensor_group (hk : kind t = .powerSensor ∨ kind t = .currentSensor) :
    12 < group t := by
  rcases hk with hk | hk <;> cases t <;> first | decide | (exact absurd hk (by decide))

theorem sensor_data (hk : kind t = .powerSensor ∨ kind t = .currentSensor ∨ kind t = .tapRegulator ∨
    kind t = .voltageRegulator) : DataOk D t e := by
  rcases hk with hk | hk | hk | hk <;> cases t <;> first | exact trivial | (exact absurd hk (by decide))

/-- Inserting an element with one resolved reference. -/
theorem outcome_single (X : Ctx D c L t e) {ts : List CompType} (hd : DataOk D t e) (hrefs : refs t e = [(e.object, ts)])
    (hp : Present D e.object ts) : Outcome D L t e (emplaceComp c t e (.ok ())) := by
  refine outcome_emplace X (fun _ => hd) (by intro m h; cases h) ?_
  rw [hrefs]
  intro r hr
  simp only [List.mem_cons, List.not_mem_nil, or_false] at hr
  subst hr
  exact hp

theorem base_lt {g : Gettable} {ts : List CompType} (hg : 12 < group t)
    (h : ∀ t' ∈ ts, isBase g (group t') = true ∧ group t' ≤ 12) :
    ∀ t' ∈ ts, isBase g (group t') = true ∧ group t' < group t :=
  fun t' ht' => ⟨(h t' ht').1, Nat.lt_of_le_of_lt (h t' ht').2 hg⟩

theorem all_lt {ts : List CompType} (hg : 12 < group t) (h : ∀ t' ∈ ts, group t' ≤ 12) :
    ∀ t' ∈ ts, group t' < group t := fun t' ht' => Nat.lt_of_le_of_lt (h t' ht') hg

theorem outcome_powerSensor (X : Ctx D c L t e) (hk : kind t = .powerSensor) :
    Outcome D L t e (addPlain c t e) := by
  have hg := sensor_group (.inl hk)
  have hd : DataOk D t e := sensor_data (.inl hk)
  have hrefs := refs_power (e := e) hk
  unfold addPlain
  rw [hk]
  obtain ⟨ts, hts⟩ : ∃ ts, refs t e = [(e.object, ts)] := ⟨_, hrefs⟩
  have hmem : (e.object, ts) ∈ refs t e := by simp [hts]
  have hts' := hts.symm.trans hrefs
  simp only [List.cons.injEq, Prod.mk.injEq, true_and, and_true] at hts'
  refine outcome_notLink X ts hmem ?_ ?_ ?_
  · subst hts'; split_ifs <;> decide
  · subst hts'
    split_ifs <;> exact all_lt hg (by decide)
  · intro hnl
    unfold powerSensorSwitch
    by_cases h01 : e.terminal = 0 ∨ e.terminal = 1
    · simp only [h01, if_true] at hts' ⊢
      refine outcome_switch X hmem ?_ ?_ (fun x _ hp => outcome_single X hd hts hp)
      · subst hts'; exact base_lt hg (by decide)
      · intro t'
        subst hts'
        cases t' <;> simp [isBase, group] <;> exact fun a b hab h => hnl _ hab h
    simp only [h01, if_false] at hts' ⊢
    by_cases h678 : e.terminal = 6 ∨ e.terminal = 7 ∨ e.terminal = 8
    · have hne : ¬ e.terminal = 2 ∧ ¬ e.terminal = 3 ∧ ¬ e.terminal = 4 ∧ ¬ e.terminal = 5 := by omega
      simp only [h678, hne.1, hne.2.1, hne.2.2.1, hne.2.2.2, if_true, if_false] at hts' ⊢
      refine outcome_switch X hmem ?_ ?_ (fun x _ hp => outcome_single X hd hts hp)
      · subst hts'; exact base_lt hg (by decide)
      · intro t'; subst hts'; cases t' <;> simp [isBase, group]
    simp only [h678, if_false] at hts' ⊢
    by_cases h3 : e.terminal = 3
    · simp only [h3, if_true] at hts' ⊢
      simp only [Int.reduceEq, if_false, if_true] at hts'
      refine outcome_switch X hmem ?_ ?_ (fun x _ hp => outcome_single X hd hts hp)
      · subst hts'; exact base_lt hg (by decide)
      · intro t'; subst hts'; cases t' <;> simp [isBase, group]
    by_cases h2 : e.terminal = 2
    · simp only [h2] at hts' ⊢
      simp only [Int.reduceEq, if_false, if_true] at hts' ⊢
      refine outcome_switch X hmem ?_ ?_ (fun x _ hp => outcome_single X hd hts hp)
      · subst hts'; exact base_lt hg (by decide)
      · intro t'; subst hts'; cases t' <;> simp [isBase, group]
    by_cases h4 : e.terminal = 4
    · simp only [h4] at hts' ⊢
      simp only [Int.reduceEq, if_false, if_true] at hts' ⊢
      refine outcome_switch X hmem ?_ ?_ (fun x _ hp => outcome_single X hd hts hp)
      · subst hts'; exact base_lt hg (by decide)
      · intro t'; subst hts'; cases t' <;> simp [isBase, group]
    by_cases h5 : e.terminal = 5
    · simp only [h5] at hts' ⊢
      simp only [Int.reduceEq, if_false, if_true] at hts' ⊢
      refine outcome_switch X hmem ?_ ?_ (fun x _ hp => outcome_single X hd hts hp)
      · subst hts'; exact base_lt hg (by decide)
      · intro t'; subst hts'; cases t' <;> simp [isBase, group]
    by_cases h9 : e.terminal = 9
    · simp only [h9] at hts' ⊢
      simp only [Int.reduceEq, if_false, if_true] at hts' ⊢
      refine outcome_switch X hmem ?_ ?_ (fun x _ hp => outcome_single X hd hts hp)
      · subst hts'; exact base_lt hg (by decide)
      · intro t'; subst hts'; cases t' <;> simp [isBase, group]
    simp only [h3, h2, h4, h5, h9, if_false] at hts' ⊢
    refine ⟨.inl rfl, ts, hmem, ?_⟩
    subst hts'
    rintro ⟨t', ht', _⟩
    simp at ht'

/-- The nodes of a branch or three-winding transformer that was inserted are nodes of the dataset, so looking up their
rated voltage succeeds. -/
theorem terminal_node (X : Ctx D c L t e) (hpos : 0 < group t) {p : CompType × Elem K} (hp : p ∈ L) {n : Int}
    (hr : (n, [CompType.node]) ∈ refs p.1 p.2) : ∃ u, nodeURated c n = .ok u := by
  cases h : nodeURated c n with
  | ok u => exact ⟨u, rfl⟩
  | error err => exact absurd (X.valid p hp _ hr) (rated_err X hpos h).2

theorem branch_refs {g : Gettable} {t' : CompType} {e' : Elem K} (hg : g = .branch ∨ g = .transformer)
    (h : isBase g (group t') = true) : (e'.n1, [CompType.node]) ∈ refs t' e' ∧ (e'.n2, [CompType.node]) ∈ refs t' e' := by
  rcases hg with rfl | rfl <;> cases t' <;> simp [isBase, group] at h <;> simp [refs]

theorem branch3_refs {g : Gettable} {t' : CompType} {e' : Elem K} (hg : g = .branch3 ∨ g = .threeWindingTransformer)
    (h : isBase g (group t') = true) : (e'.n1, [CompType.node]) ∈ refs t' e' ∧ (e'.n2, [CompType.node]) ∈ refs t' e' ∧
      (e'.n3, [CompType.node]) ∈ refs t' e' := by
  rcases hg with rfl | rfl <;> cases t' <;> simp [isBase, group] at h <;> simp [refs]

/-- The end of the current sensor and tap regulator branches. -/
theorem outcome_tail (X : Ctx D c L t e) {ts : List CompType} (hd : DataOk D t e) (hrefs : refs t e = [(e.object, ts)])
    (hp : Present D e.object ts) (hpos : 0 < group t) {p : CompType × Elem K} (hpL : p ∈ L) {n : Int}
    (hr : (n, [CompType.node]) ∈ refs p.1 p.2) :
    Outcome D L t e (nodeURated c n >>= fun _ => emplaceComp c t e (.ok ())) := by
  obtain ⟨u, hu⟩ := terminal_node X hpos hpL hr
  rw [hu]
  exact outcome_single X hd hrefs hp

theorem outcome_currentSensor (X : Ctx D c L t e) (hk : kind t = .currentSensor) :
    Outcome D L t e (addPlain c t e) := by
  have hg := sensor_group (.inr hk)
  have hpos : 0 < group t := by omega
  have hd : DataOk D t e := sensor_data (.inr (.inl hk))
  have hrefs := refs_current (e := e) hk
  unfold addPlain
  rw [hk]
  obtain ⟨ts, hts⟩ : ∃ ts, refs t e = [(e.object, ts)] := ⟨_, hrefs⟩
  have hmem : (e.object, ts) ∈ refs t e := by simp [hts]
  have hts' := hts.symm.trans hrefs
  simp only [List.cons.injEq, Prod.mk.injEq, true_and, and_true] at hts'
  refine outcome_notLink X ts hmem ?_ ?_ ?_
  · subst hts'; split_ifs <;> decide
  · subst hts'
    split_ifs <;> exact all_lt hg (by decide)
  · intro hnl
    unfold currentSensorNode
    have hb : ts = [.line, .asymLine, .genericBranch, .transformer] →
        (∀ t' ∈ ts, isBase .branch (group t') = true ∧ group t' < group t) ∧
        (∀ t', isBase .branch (group t') = true → t' ∈ ts ∨ ∀ p ∈ L, p.2.id = e.object → p.1 ≠ t') := by
      rintro rfl
      refine ⟨base_lt hg (by decide), ?_⟩
      intro t'
      cases t' <;> simp [isBase, group] <;> exact fun a b hab h => hnl _ hab h
    have hb3 : ts = [.threeWindingTransformer] →
        (∀ t' ∈ ts, isBase .branch3 (group t') = true ∧ group t' < group t) ∧
        (∀ t', isBase .branch3 (group t') = true → t' ∈ ts ∨ ∀ p ∈ L, p.2.id = e.object → p.1 ≠ t') := by
      rintro rfl
      refine ⟨base_lt hg (by decide), ?_⟩
      intro t'
      cases t' <;> simp [isBase, group]
    by_cases h0 : e.terminal = 0
    · simp only [h0, true_or, if_true] at hts' ⊢
      refine outcome_switch X hmem (hb hts').1 (hb hts').2 fun x hx hp => ?_
      obtain ⟨h1, h2, h3⟩ := getById_ok X.inv hx
      exact outcome_tail X hd hts hp hpos h1 (branch_refs (.inl rfl) h3).1
    by_cases h1' : e.terminal = 1
    · simp only [h1', or_true, if_true] at hts' ⊢
      simp only [Int.reduceEq, if_false, if_true]
      refine outcome_switch X hmem (hb hts').1 (hb hts').2 fun x hx hp => ?_
      obtain ⟨h1, h2, h3⟩ := getById_ok X.inv hx
      exact outcome_tail X hd hts hp hpos h1 (branch_refs (.inl rfl) h3).2
    simp only [h0, h1', or_self, if_false] at hts' ⊢
    by_cases h6 : e.terminal = 6
    · simp only [h6, true_or, if_true] at hts' ⊢
      refine outcome_switch X hmem (hb3 hts').1 (hb3 hts').2 fun x hx hp => ?_
      obtain ⟨h1, h2, h3⟩ := getById_ok X.inv hx
      exact outcome_tail X hd hts hp hpos h1 (branch3_refs (.inl rfl) h3).1
    by_cases h7 : e.terminal = 7
    · simp only [h7, true_or, or_true, if_true] at hts' ⊢
      simp only [Int.reduceEq, if_false, if_true]
      refine outcome_switch X hmem (hb3 hts').1 (hb3 hts').2 fun x hx hp => ?_
      obtain ⟨h1, h2, h3⟩ := getById_ok X.inv hx
      exact outcome_tail X hd hts hp hpos h1 (branch3_refs (.inl rfl) h3).2.1
    by_cases h8 : e.terminal = 8
    · simp only [h8, or_true, if_true] at hts' ⊢
      simp only [Int.reduceEq, if_false, if_true]
      refine outcome_switch X hmem (hb3 hts').1 (hb3 hts').2 fun x hx hp => ?_
      obtain ⟨h1, h2, h3⟩ := getById_ok X.inv hx
      exact outcome_tail X hd hts hp hpos h1 (branch3_refs (.inl rfl) h3).2.2
    simp only [h6, h7, h8, or_self, if_false] at hts' ⊢
    refine ⟨.inl rfl, ts, hmem, ?_⟩
    subst hts'
    rintro ⟨t', ht', _⟩
    simp at ht'

theorem outcome_tapRegulator (X : Ctx D c L t e) (hk : kind t = .tapRegulator) :
    Outcome D L t e (addPlain c t e) := by
  have ht : t = .tapRegulator := by cases t <;> first | rfl | (exact absurd hk (by decide))
  subst ht
  have hd : DataOk D .tapRegulator e := trivial
  obtain ⟨ts, hts⟩ : ∃ ts, refs .tapRegulator e = [(e.object, ts)] := ⟨_, rfl⟩
  have hmem : (e.object, ts) ∈ refs .tapRegulator e := by simp [hts]
  have hts' := hts.symm
  simp only [refs, List.cons.injEq, Prod.mk.injEq, true_and, and_true] at hts'
  have hlt : ∀ t' ∈ ts, group t' < group .tapRegulator := by
    subst hts'
    split_ifs <;> simp [group]
  show Outcome D L _ e (idxById c e.object >>= fun idx => regulatedTerminal c idx e.object e.side >>= fun n =>
    nodeURated c n >>= fun _ => emplaceComp c _ e (.ok ()))
  cases h : idxById c e.object with
  | error err =>
    obtain ⟨rfl, _⟩ := idxById_err X.inv h
    exact ⟨_, hmem, absent_of_idx_err X h ts hlt⟩
  | ok idx =>
    obtain ⟨_, p, hp, hid, hgr, hget⟩ := idxById_ok X.inv h
    simp only [bind, Except.bind]
    unfold regulatedTerminal
    by_cases htr : idx.group = group .transformer
    · have hpt : p.1 = .transformer := group_inj _ _ (by rw [← hgr, htr])
      have hb : isBase .transformer (group p.1) = true := by rw [hpt]; rfl
      have hbr := branch_refs (e' := p.2) (.inr rfl) hb
      have hpres : e.side = 0 ∨ e.side = 1 → Present D e.object ts := by
        intro hs
        simp only [hs, if_true] at hts'
        subst hts'
        refine ⟨.transformer, by simp, p.2, ?_, hid⟩
        have := X.sub p hp
        rw [hpt] at this
        exact this
      simp only [htr, if_true, hget _ hb, bind, Except.bind]
      by_cases h1 : e.side = 1
      · simp only [h1, if_true, pure, Except.pure]
        exact outcome_tail X hd hts (hpres (.inr h1)) (by decide) hp hbr.2
      by_cases h0 : e.side = 0
      · simp only [h0, if_true, pure, Except.pure]
        simp only [Int.reduceEq, if_false, if_true]
        exact outcome_tail X hd hts (hpres (.inl h0)) (by decide) hp hbr.1
      simp only [h0, h1, if_false]
      refine ⟨.inr rfl, ts, hmem, ?_⟩
      refine absent_of_other X hp hid ts hlt ?_
      rw [hpt]
      subst hts'
      simp only [h0, h1, or_self, if_false]
      split_ifs <;> simp
    by_cases h3w : idx.group = group .threeWindingTransformer
    · have hpt : p.1 = .threeWindingTransformer := group_inj _ _ (by rw [← hgr, h3w])
      have hb : isBase .threeWindingTransformer (group p.1) = true := by rw [hpt]; rfl
      have hbr := branch3_refs (e' := p.2) (.inr rfl) hb
      have hpres : e.side = 0 ∨ e.side = 1 ∨ e.side = 2 → Present D e.object ts := by
        intro hs
        refine ⟨.threeWindingTransformer, ?_, p.2, ?_, hid⟩
        · subst hts'
          by_cases h01 : e.side = 0 ∨ e.side = 1
          · simp [h01]
          · have : e.side = 2 := by omega
            simp [this]
        · have := X.sub p hp
          rw [hpt] at this
          exact this
      simp only [htr, if_false, h3w, if_true, hget _ hb, bind, Except.bind]
      by_cases h0 : e.side = 0
      · simp only [h0, if_true, pure, Except.pure]
        exact outcome_tail X hd hts (hpres (.inl h0)) (by decide) hp hbr.1
      by_cases h1 : e.side = 1
      · simp only [h1, if_true, pure, Except.pure]
        simp only [Int.reduceEq, if_false, if_true]
        exact outcome_tail X hd hts (hpres (.inr (.inl h1))) (by decide) hp hbr.2.1
      by_cases h2 : e.side = 2
      · simp only [h2, if_true, pure, Except.pure]
        simp only [Int.reduceEq, if_false, if_true]
        exact outcome_tail X hd hts (hpres (.inr (.inr h2))) (by decide) hp hbr.2.2
      simp only [h0, h1, h2, if_false]
      refine ⟨.inr rfl, ts, hmem, ?_⟩
      subst hts'
      simp only [h0, h1, h2, or_self, if_false]
      rintro ⟨t', ht', _⟩
      simp at ht'
    simp only [htr, h3w, if_false]
    refine ⟨ts, hmem, absent_of_other X hp hid ts hlt ?_⟩
    intro hin
    have : p.1 = .transformer ∨ p.1 = .threeWindingTransformer := by
      subst hts'
      split_ifs at hin <;> simp at hin
      · exact hin
      · exact .inr hin
    rcases this with h1 | h1
    · exact htr (by rw [hgr, h1])
    · exact h3w (by rw [hgr, h1])

theorem outcome_voltageRegulator (X : Ctx D c L t e) (hk : kind t = .voltageRegulator) :
    Outcome D L t e (addPlain c t e) := by
  have ht : t = .voltageRegulator := by cases t <;> first | rfl | (exact absurd hk (by decide))
  subst ht
  have hmem : (e.object, [.symGen, .asymGen, .symLoad, .asymLoad]) ∈ refs .voltageRegulator e := by simp [refs]
  have hlt : ∀ t' ∈ [CompType.symGen, .asymGen, .symLoad, .asymLoad], group t' < group .voltageRegulator := by
    simp [group]
  show Outcome D L _ e (idxById c e.object >>= fun idx =>
    if idx.group ≠ group .symGen ∧ idx.group ≠ group .asymGen ∧ idx.group ≠ group .symLoad ∧
        idx.group ≠ group .asymLoad then
      .error (.invalidRegulatedObject e.object)
    else emplaceComp c _ e (.ok ()))
  cases h : idxById c e.object with
  | error err =>
    obtain ⟨rfl, _⟩ := idxById_err X.inv h
    exact ⟨_, hmem, absent_of_idx_err X h _ hlt⟩
  | ok idx =>
    obtain ⟨_, p, hp, hid, hgr, hget⟩ := idxById_ok X.inv h
    simp only [bind, Except.bind]
    split_ifs with hne
    · refine ⟨_, hmem, absent_of_other X hp hid _ hlt ?_⟩
      intro hin
      simp only [List.mem_cons, List.not_mem_nil, or_false] at hin
      rw [hgr] at hne
      rcases hin with h1 | h1 | h1 | h1 <;> rw [h1] at hne
      · exact hne.1 rfl
      · exact hne.2.1 rfl
      · exact hne.2.2.1 rfl
      · exact hne.2.2.2 rfl
    · refine outcome_single X trivial rfl ⟨p.1, ?_, p.2, X.sub p hp, hid⟩
      rw [hgr] at hne
      generalize p.1 = q at *
      cases q <;> simp [group] at hne ⊢

theorem addPlain_outcome (X : Ctx D c L t e) : Outcome D L t e (addPlain c t e) := by
  cases hk : kind t with
  | node => exact outcome_node X hk
  | branch => exact outcome_branch X hk
  | branch3 => exact outcome_branch3 X hk
  | appliance => exact outcome_appliance X hk
  | voltageSensor => exact outcome_voltageSensor X hk
  | powerSensor => exact outcome_powerSensor X hk
  | currentSensor => exact outcome_currentSensor X hk
  | fault => exact outcome_fault X hk
  | tapRegulator => exact outcome_tapRegulator X hk
  | voltageRegulator => exact outcome_voltageRegulator X hk

end step

/-! ## The loops -/

/-- The elements of some types, in processing order. -/
def flat (D : CompType → List (Elem K)) (ts : List CompType) : List (CompType × Elem K) :=
  ts.flatMap fun t => (D t).map fun e => (t, e)

theorem ids_eq (D : CompType → List (Elem K)) : ids D = (flat D allTypes).map (·.2.id) := by
  simp [ids, flat, List.map_flatMap, Function.comp_def]

theorem mem_flat {D : CompType → List (Elem K)} {ts : List CompType} {p : CompType × Elem K} :
    p ∈ flat D ts ↔ p.1 ∈ ts ∧ p.2 ∈ D p.1 := by
  obtain ⟨t, e⟩ := p
  simp only [flat, List.mem_flatMap, List.mem_map, Prod.mk.injEq]
  constructor
  · rintro ⟨t', h1, e', h2, rfl, rfl⟩; exact ⟨h1, h2⟩
  · rintro ⟨h1, h2⟩; exact ⟨t, h1, e, h2, rfl, rfl⟩

theorem mkCtx {D : CompType → List (Elem K)} {c : Container (Comp K)} {pre post : List CompType} {t : CompType}
    {done es : List (Elem K)} {e : Elem K} (hall : allTypes = pre ++ t :: post) (hD : D t = done ++ e :: es)
    (inv : Inv c (flat D pre ++ done.map fun e => (t, e)))
    (valid : ∀ p ∈ flat D pre ++ done.map (fun e => (t, e)), ∀ r ∈ refs p.1 p.2, Present D r.1 r.2) :
    Ctx D c (flat D pre ++ done.map fun e => (t, e)) t e where
  inv := inv
  mem := by rw [hD]; simp
  sub := by
    intro p hp
    rw [List.mem_append] at hp
    rcases hp with hp | hp
    · exact (mem_flat.mp hp).2
    · obtain ⟨e', he', rfl⟩ := List.mem_map.mp hp
      show e' ∈ D t
      rw [hD]
      simp [he']
  full := by
    intro t' hlt e' he'
    rw [List.mem_append]
    exact .inl (mem_flat.mpr ⟨mem_of_group_lt pre post t hall t' hlt, he'⟩)
  valid := valid
  conflict := by
    rintro ⟨p, hp, hid⟩ hn
    have hfl : flat D allTypes = (flat D pre ++ done.map fun e => (t, e)) ++ ((t, e) :: (es.map fun e => (t, e)) ++
        flat D post) := by
      rw [hall]
      simp [flat, hD]
    rw [ids_eq, hfl, List.map_append, List.nodup_append] at hn
    exact hn.2.2 p.2.id (List.mem_map.mpr ⟨p, hp, rfl⟩) e.id (by simp) hid

theorem emplace_map {c c' : Container (Comp K)} {t : CompType} {e : Elem K} {ctor : Except String Unit}
    (h : emplaceComp c t e ctor = .ok c') {id : Int} {idx : Idx2D} (hm : c.map id = some idx) :
    c'.map id = some idx := by
  unfold emplaceComp at h
  cases he : emplace c e.id (group t) (ctor.map fun _ => (⟨t, e⟩ : Comp K)) with
  | error err => simp [he] at h
  | ok c1 =>
    simp only [he] at h
    have := Except.ok.inj h
    subst this
    unfold emplace at he
    cases hm' : c.map e.id with
    | some i => simp [hm'] at he
    | none =>
      have hne : id ≠ e.id := by intro hh; rw [hh, hm'] at hm; cases hm
      cases hv : c.vectors[group t]? with
      | none => simp [hm', hv] at he
      | some vec =>
        cases hc : (ctor.map fun _ => (⟨t, e⟩ : Comp K)) with
        | error m => simp [hm', hv, hc] at he
        | ok x =>
          simp only [hm', hv, hc] at he
          have := Except.ok.inj he
          subst this
          simp only [hne, if_false]
          exact hm

theorem bind_ok {α β : Type} {x : Res α} {f : α → Res β} {b : β} (h : (x >>= f) = .ok b) :
    ∃ a, x = .ok a ∧ f a = .ok b := by
  cases hx : x with
  | error e => rw [hx] at h; cases h
  | ok a => rw [hx] at h; exact ⟨a, rfl, h⟩

theorem addPlain_emplace {c c' : Container (Comp K)} {t : CompType} {e : Elem K} (h : addPlain c t e = .ok c') :
    ∃ ctor, emplaceComp c t e ctor = .ok c' := by
  unfold addPlain at h
  cases hk : kind t <;> rw [hk] at h <;> simp only at h
  · exact ⟨_, h⟩
  · obtain ⟨_, _, h⟩ := bind_ok h; obtain ⟨_, _, h⟩ := bind_ok h; exact ⟨_, h⟩
  · obtain ⟨_, _, h⟩ := bind_ok h; obtain ⟨_, _, h⟩ := bind_ok h; obtain ⟨_, _, h⟩ := bind_ok h; exact ⟨_, h⟩
  · obtain ⟨_, _, h⟩ := bind_ok h; exact ⟨_, h⟩
  · obtain ⟨_, _, h⟩ := bind_ok h; exact ⟨_, h⟩
  · obtain ⟨_, _, h⟩ := bind_ok h; obtain ⟨_, _, h⟩ := bind_ok h; exact ⟨_, h⟩
  · obtain ⟨_, _, h⟩ := bind_ok h; obtain ⟨_, _, h⟩ := bind_ok h; obtain ⟨_, _, h⟩ := bind_ok h; exact ⟨_, h⟩
  · obtain ⟨_, _, h⟩ := bind_ok h; exact ⟨_, h⟩
  · obtain ⟨_, _, h⟩ := bind_ok h; obtain ⟨_, _, h⟩ := bind_ok h; obtain ⟨_, _, h⟩ := bind_ok h; exact ⟨_, h⟩
  · obtain ⟨_, _, h⟩ := bind_ok h
    split_ifs at h
    exact ⟨_, h⟩

/-- The list of regulated positions belongs to the regulators processed so far. -/
def Tracks (t : CompType) (c : Container (Comp K)) (done : List (Elem K)) (R : List Idx2D) : Prop :=
  if isRegulator t then List.Forall₂ (fun (e : Elem K) idx => c.map e.object = some idx) done R else R = []

theorem tracks_mono {t : CompType} {c c' : Container (Comp K)} {done : List (Elem K)} {R : List Idx2D}
    (h : Tracks t c done R) (hm : ∀ id idx, c.map id = some idx → c'.map id = some idx) : Tracks t c' done R := by
  unfold Tracks at *
  split_ifs at * with hr
  · exact h.imp fun _ _ => hm _ _
  · exact h

/-- Everything known after some components. -/
structure Good (D : CompType → List (Elem K)) (c : Container (Comp K)) (L : List (CompType × Elem K)) : Prop where
  inv : Inv c L
  resolved : ∀ p ∈ L, ∀ r ∈ refs p.1 p.2, Present D r.1 r.2
  data : ∀ p ∈ L, DataOk D p.1 p.2

theorem loop {D : CompType → List (Elem K)} {pre post : List CompType} {t : CompType}
    (hall : allTypes = pre ++ t :: post) (es : List (Elem K)) :
    ∀ (done : List (Elem K)) (c : Container (Comp K)) (R : List Idx2D), D t = done ++ es →
      Good D c (flat D pre ++ done.map fun e => (t, e)) → Tracks t c done R →
      match es.foldlM (addStep t) (c, R) with
      | .ok s => Good D s.1 (flat D pre ++ (D t).map fun e => (t, e)) ∧ Tracks t s.1 (D t) s.2
      | .error err => ∃ e ∈ D t, Explains D t e err := by
  induction es with
  | nil =>
    intro done c R hD hg hT
    simp only [List.append_nil] at hD
    subst hD
    exact ⟨hg, hT⟩
  | cons e es ih =>
    intro done c R hD hg hT
    have X := mkCtx hall hD hg.inv hg.resolved
    have ho := addPlain_outcome X
    have hmem : e ∈ D t := X.mem
    have hgood : ∀ c', addPlain c t e = .ok c' → Good D c' (flat D pre ++ (done ++ [e]).map fun e => (t, e)) := by
      intro c' hc'
      rw [hc'] at ho
      obtain ⟨h1, h2, h3⟩ := ho
      rw [List.map_append, ← List.append_assoc]
      refine ⟨h3, ?_, ?_⟩
      · intro p hp
        rcases List.mem_append.mp hp with hp | hp
        · exact hg.resolved p hp
        · simp only [List.map_cons, List.map_nil, List.mem_singleton] at hp
          subst hp
          exact h1
      · intro p hp
        rcases List.mem_append.mp hp with hp | hp
        · exact hg.data p hp
        · simp only [List.map_cons, List.map_nil, List.mem_singleton] at hp
          subst hp
          exact h2
    have hmono : ∀ c', addPlain c t e = .ok c' → ∀ id idx, c.map id = some idx → c'.map id = some idx := by
      intro c' hc' id idx hm
      obtain ⟨ctor, he⟩ := addPlain_emplace hc'
      exact emplace_map he hm
    have hD' : D t = (done ++ [e]) ++ es := by rw [hD]; simp
    rw [List.foldlM_cons]
    by_cases hr : isRegulator t = true
    · cases hidx : idxById c e.object with
      | error err =>
        have hs : addStep t (c, R) e = .error err := by simp [addStep, hr, hidx, bind, Except.bind]
        rw [hs]
        have hk : kind t = .tapRegulator ∨ kind t = .voltageRegulator := by
          cases t <;> first | (left; rfl) | (right; rfl) | (exact absurd hr (by decide))
        have hp : addPlain c t e = .error err := by
          unfold addPlain
          rcases hk with hk | hk <;> rw [hk] <;> simp [hidx, bind, Except.bind]
        rw [hp] at ho
        exact ⟨e, hmem, ho⟩
      | ok idx =>
        cases hp : addPlain c t e with
        | error err =>
          have hs : addStep t (c, R) e = .error err := by simp [addStep, hr, hidx, hp, bind, Except.bind]
          rw [hs]
          rw [hp] at ho
          exact ⟨e, hmem, ho⟩
        | ok c' =>
          have hs : addStep t (c, R) e = .ok (c', R ++ [idx]) := by
            simp [addStep, hr, hidx, hp, bind, Except.bind, pure, Except.pure]
          rw [hs]
          refine ih (done ++ [e]) c' (R ++ [idx]) hD' (hgood c' hp) ?_
          have hT' := tracks_mono hT (hmono c' hp)
          unfold Tracks at *
          simp only [hr, if_true] at *
          refine List.rel_append hT' (List.Forall₂.cons ?_ List.Forall₂.nil)
          exact hmono c' hp _ _ (idxById_ok X.inv hidx).1
    · cases hp : addPlain c t e with
      | error err =>
        have hs : addStep t (c, R) e = .error err := by simp [addStep, hr, hp, bind, Except.bind]
        rw [hs]
        rw [hp] at ho
        exact ⟨e, hmem, ho⟩
      | ok c' =>
        have hs : addStep t (c, R) e = .ok (c', R) := by
          simp [addStep, hr, hp, bind, Except.bind, pure, Except.pure]
        rw [hs]
        refine ih (done ++ [e]) c' R hD' (hgood c' hp) ?_
        unfold Tracks at *
        simp only [hr] at *
        exact hT

theorem map_inj {c : Container (Comp K)} {L : List (CompType × Elem K)} (hi : Inv c L) {a b : Int} {idx : Idx2D}
    (ha : c.map a = some idx) (hb : c.map b = some idx) : a = b := by
  obtain ⟨v1, x1, h1, h2, h3⟩ := hi.ref.some_val a idx ha
  obtain ⟨v2, x2, h4, h5, h6⟩ := hi.ref.some_val b idx hb
  rw [h1] at h4
  cases h4
  rw [h2] at h5
  cases h5
  unfold regOf at h3 h6
  cases hf : L.find? (fun p => p.2.id == a) with
  | none => simp [hf] at h3
  | some p =>
    cases hf' : L.find? (fun p => p.2.id == b) with
    | none => simp [hf'] at h6
    | some q =>
      simp only [hf, Option.map_some, Option.some.injEq, Prod.mk.injEq] at h3
      simp only [hf', Option.map_some, Option.some.injEq, Prod.mk.injEq] at h6
      have hpq : toComp p = toComp q := h3.2.trans h6.2.symm
      have := congrArg (fun x => x.elem.id) hpq
      simp only [toComp] at this
      rw [← (find_some hf).2, ← (find_some hf').2, this]

theorem forall2_nodup {c : Container (Comp K)} {L : List (CompType × Elem K)} (hi : Inv c L) :
    ∀ {done : List (Elem K)} {R : List Idx2D},
      List.Forall₂ (fun (e : Elem K) idx => c.map e.object = some idx) done R →
      (R.Nodup ↔ (done.map (·.object)).Nodup) := by
  intro done R h
  induction h with
  | nil => simp
  | @cons e idx done R h1 h2 ih =>
    simp only [List.map_cons, List.nodup_cons, ih]
    refine and_congr_left' (not_congr ?_)
    constructor
    · intro hin
      obtain ⟨e', he', hm⟩ : ∃ e' ∈ done, c.map e'.object = some idx := by
        clear ih
        induction h2 with
        | nil => simp at hin
        | @cons e'' idx'' _ _ h3 h4 ih =>
          rcases List.mem_cons.mp hin with rfl | hin
          · exact ⟨e'', by simp, h3⟩
          · obtain ⟨e', he', hm⟩ := ih hin
            exact ⟨e', by simp [he'], hm⟩
      exact List.mem_map.mpr ⟨e', he', map_inj hi hm h1⟩
    · intro hin
      obtain ⟨e', he', ho⟩ := List.mem_map.mp hin
      clear ih
      induction h2 with
      | nil => simp at he'
      | @cons e'' idx'' _ _ h3 h4 ih =>
        rcases List.mem_cons.mp he' with rfl | he'
        · rw [ho, h1] at h3
          cases h3
          simp
        · exact List.mem_cons_of_mem _ (ih (List.mem_map.mpr ⟨e', he', ho⟩) he')

theorem dedup_length (l : List Idx2D) : l.dedup.length ≠ l.length ↔ ¬ l.Nodup := by
  refine not_congr ⟨fun h => ?_, fun h => by rw [h.dedup]⟩
  have := (List.dedup_sublist l).eq_of_length h
  rw [← this]
  exact List.nodup_dedup l

theorem addComponent_outcome {D : CompType → List (Elem K)} {pre post : List CompType} {t : CompType}
    (hall : allTypes = pre ++ t :: post) (c : Container (Comp K)) (hg : Good D c (flat D pre)) :
    match addComponent t c (D t) with
    | .ok c' => Good D c' (flat D (pre ++ [t])) ∧ (isRegulator t = true → ((D t).map (·.object)).Nodup)
    | .error err => (∃ e ∈ D t, Explains D t e err) := by
  have hl := loop (D := D) hall (D t) [] c [] (by simp) (by simpa using hg) (by unfold Tracks; split_ifs <;> simp)
  unfold addComponent
  have hflat : flat D (pre ++ [t]) = flat D pre ++ (D t).map fun e => (t, e) := by simp [flat]
  cases hf : (D t).foldlM (addStep t) (c, []) with
  | error err => rw [hf] at hl; exact hl
  | ok s =>
    rw [hf] at hl
    obtain ⟨h1, h2⟩ := hl
    simp only [bind, Except.bind]
    split_ifs with hd
    · rw [dedup_length] at hd
      unfold Tracks at h2
      by_cases hr : isRegulator t = true
      · simp only [hr, if_true] at h2
        rw [forall2_nodup h1.inv h2] at hd
        have hne : D t ≠ [] := by intro h; rw [h] at hd; simp at hd
        obtain ⟨e, he⟩ := List.exists_mem_of_ne_nil _ hne
        refine ⟨e, he, ?_, hd⟩
        cases t <;> first | (left; rfl) | (right; rfl) | (exact absurd hr (by decide))
      · simp only [hr] at h2
        simp only [Bool.false_eq_true, if_false] at h2
        rw [h2] at hd
        simp at hd
    · rw [dedup_length, not_not] at hd
      simp only [pure, Except.pure]
      rw [hflat]
      refine ⟨h1, fun hr => ?_⟩
      unfold Tracks at h2
      simp only [hr, if_true] at h2
      exact (forall2_nodup h1.inv h2).mp hd

theorem build_outcome (D : CompType → List (Elem K)) (post : List CompType) :
    ∀ (pre : List CompType) (c : Container (Comp K)), allTypes = pre ++ post → Good D c (flat D pre) →
      (∀ t ∈ pre, isRegulator t = true → ((D t).map (·.object)).Nodup) →
      match post.foldlM (buildStep D) c with
      | .ok c' => Good D c' (flat D allTypes) ∧ ∀ t, isRegulator t = true → ((D t).map (·.object)).Nodup
      | .error err => ∃ t, ∃ e ∈ D t, Explains D t e err := by
  induction post with
  | nil =>
    intro pre c hall hg hr
    simp only [List.append_nil] at hall
    subst hall
    exact ⟨hg, fun t => hr t (mem_allTypes t)⟩
  | cons t post ih =>
    intro pre c hall hg hr
    have h1 := addComponent_outcome hall c hg
    rw [List.foldlM_cons]
    unfold buildStep
    cases hc : addComponent t c (D t) with
    | error err => rw [hc] at h1; exact ⟨t, h1⟩
    | ok c' =>
      rw [hc] at h1
      refine ih (pre ++ [t]) c' (by simp [hall]) h1.1 ?_
      intro t' ht'
      rcases List.mem_append.mp ht' with h | h
      · exact hr t' h
      · simp only [List.mem_singleton] at h
        subst h
        exact h1.2

/-! ## C42 -/

/-- C42. Building a model succeeds for exactly the valid datasets: IDs are unique, every referenced node and every
measured, faulted or regulated object exists and has an allowed type, the data of each component pass its own check,
and no object is regulated twice by the same kind of regulator. -/
theorem build_iff_valid (D : CompType → List (Elem K)) : (∃ c, build D = .ok c) ↔ Valid D := by
  have h := build_outcome D allTypes [] (Container.empty 22) (by simp)
    ⟨inv_empty, by simp [flat], by simp [flat]⟩ (by simp)
  change match build D with
    | .ok c' => Good D c' (flat D allTypes) ∧ ∀ t, isRegulator t = true → ((D t).map (·.object)).Nodup
    | .error err => ∃ t, ∃ e ∈ D t, Explains D t e err at h
  cases hb : build D with
  | ok c =>
    rw [hb] at h
    obtain ⟨h1, h2⟩ := h
    refine ⟨fun _ => ⟨?_, ?_, ?_, h2 _ rfl, h2 _ rfl⟩, fun _ => ⟨c, rfl⟩⟩
    · rw [ids_eq]; exact h1.inv.nodup
    · intro t e he; exact h1.resolved (t, e) (mem_flat.mpr ⟨mem_allTypes t, he⟩)
    · intro t e he; exact h1.data (t, e) (mem_flat.mpr ⟨mem_allTypes t, he⟩)
  | error err =>
    rw [hb] at h
    obtain ⟨t, e, he, hx⟩ := h
    refine ⟨(by rintro ⟨c, hc⟩; cases hc), fun hv => absurd hx ?_⟩
    intro hx
    cases err with
    | container err =>
      cases err with
      | conflictID id => exact hx.2 hv.unique
      | idNotFound id => obtain ⟨ts, h1, h2⟩ := hx; exact h2 (hv.resolved t e he _ h1)
      | idWrongType id => obtain ⟨ts, h1, h2⟩ := hx; exact h2 (hv.resolved t e he _ h1)
      | ctor m => exact hx (hv.data t e he)
      | undefined => exact hx
    | invalidMeasuredObject => obtain ⟨_, ts, h1, h2⟩ := hx; exact h2 (hv.resolved t e he _ h1)
    | missingCaseForEnum v => obtain ⟨_, ts, h1, h2⟩ := hx; exact h2 (hv.resolved t e he _ h1)
    | invalidRegulatedObject id => obtain ⟨ts, h1, h2⟩ := hx; exact h2 (hv.resolved t e he _ h1)
    | duplicativelyRegulatedObject =>
      obtain ⟨h1 | h1, h2⟩ := hx
      · subst h1; exact h2 hv.tapRegulators
      · subst h1; exact h2 hv.voltageRegulators

/-- C42. If building fails, the error is explained by an element of the dataset: an ID in the error is an ID used twice
or an ID the element refers to although no component of an allowed type has it. No out-of-range access happens. -/
theorem build_error_explained (D : CompType → List (Elem K)) (err : AddErr) (h : build D = .error err) :
    ∃ t, ∃ e ∈ D t, Explains D t e err := by
  have := build_outcome D allTypes [] (Container.empty 22) (by simp)
    ⟨inv_empty, by simp [flat], by simp [flat]⟩ (by simp)
  change match build D with
    | .ok c' => Good D c' (flat D allTypes) ∧ ∀ t, isRegulator t = true → ((D t).map (·.object)).Nodup
    | .error err => ∃ t, ∃ e ∈ D t, Explains D t e err at this
  rw [h] at this
  exact this

/-- C42. A model that was built contains, per type, exactly the components of the dataset in their order. -/
theorem build_contents (D : CompType → List (Elem K)) (c : Container (Comp K)) (h : build D = .ok c) (t : CompType) :
    c.vectors[group t]? = some ((D t).map fun e => ⟨t, e⟩) := by
  have := build_outcome D allTypes [] (Container.empty 22) (by simp)
    ⟨inv_empty, by simp [flat], by simp [flat]⟩ (by simp)
  change match build D with
    | .ok c' => Good D c' (flat D allTypes) ∧ ∀ t, isRegulator t = true → ((D t).map (·.object)).Nodup
    | .error err => ∃ t, ∃ e ∈ D t, Explains D t e err at this
  rw [h] at this
  rw [this.1.inv.vec t]
  congr 1
  cases t <;> simp [flat, allTypes, List.filter_append, toComp, List.filter_map, Function.comp_def]

/-- C42. After building, every reference of every component can be followed: looking up the ID gives a component whose
type is allowed for the reference. -/
theorem references_resolve (D : CompType → List (Elem K)) (c : Container (Comp K)) (h : build D = .ok c) (t : CompType)
    (e : Elem K) (he : e ∈ D t) (id : Int) (ts : List CompType) (hr : (id, ts) ∈ refs t e) :
    ∃ idx vec x, c.map id = some idx ∧ c.vectors[idx.group]? = some vec ∧ vec[idx.pos]? = some x ∧ x.elem.id = id ∧
      x.type ∈ ts ∧ x.elem ∈ D x.type ∧ idx.group = group x.type := by
  have := build_outcome D allTypes [] (Container.empty 22) (by simp)
    ⟨inv_empty, by simp [flat], by simp [flat]⟩ (by simp)
  change match build D with
    | .ok c' => Good D c' (flat D allTypes) ∧ ∀ t, isRegulator t = true → ((D t).map (·.object)).Nodup
    | .error err => ∃ t, ∃ e ∈ D t, Explains D t e err at this
  rw [h] at this
  have hi := this.1.inv
  obtain ⟨t', ht', e', he', hid⟩ := this.1.resolved (t, e) (mem_flat.mpr ⟨mem_allTypes t, he⟩) _ hr
  have hmem : (t', e') ∈ flat D allTypes := mem_flat.mpr ⟨mem_allTypes t', he'⟩
  cases hm : c.map id with
  | none =>
    have := (hi.ref.none_iff id).mp hm
    unfold regOf at this
    simp only [Option.map_eq_none_iff, List.find?_eq_none] at this
    exact absurd hid (by simpa using this _ hmem)
  | some idx =>
    obtain ⟨vec, x, h1, h2, h3⟩ := hi.ref.some_val id idx hm
    unfold regOf at h3
    cases hf : (flat D allTypes).find? (fun p => p.2.id == id) with
    | none => simp [hf] at h3
    | some p =>
      simp only [hf, Option.map_some, Option.some.injEq, Prod.mk.injEq] at h3
      have hp := find_some hf
      have : p = (t', e') := unique_of_nodup hi.nodup hp.1 hmem (hp.2.trans hid.symm)
      subst this
      refine ⟨idx, vec, x, rfl, h1, h2, ?_⟩
      rw [← h3.2, ← h3.1]
      exact ⟨hp.2, ht', he', rfl⟩

/-! Non-vacuity: a dataset with two nodes, a line, a transformer, a generator, a sensor and regulators builds, and
small changes to it are rejected. -/

private def el (id : Int) (n1 n2 object terminal side : Int) : Elem Nat :=
  ⟨id, 10, n1, n2, 0, object, terminal, side, fun us => if us.dedup.length ≤ 1 then .ok () else .error "voltage"⟩

private def sample : CompType → List (Elem Nat)
  | .node => [el 1 0 0 0 0 0, el 2 0 0 0 0 0]
  | .line => [el 3 1 2 0 0 0]
  | .transformer => [el 4 1 2 0 0 0]
  | .symGen => [el 5 2 0 0 0 0]
  | .symPowerSensor => [el 6 0 0 3 1 0]
  | .symCurrentSensor => [el 7 0 0 4 0 0]
  | .tapRegulator => [el 8 0 0 4 0 1]
  | .voltageRegulator => [el 9 0 0 5 0 0]
  | _ => []

private def outcome (r : Res (Container (Comp Nat))) : Option AddErr := match r with | .ok _ => none | .error e => some e

example : outcome (build sample) = none := by decide
example : outcome (build (Function.update sample .link [el 10 1 99 0 0 0])) =
    some (.container (.idNotFound 99)) := by decide
example : outcome (build (Function.update sample .link [el 10 1 3 0 0 0])) =
    some (.container (.idWrongType 3)) := by decide
example : outcome (build (Function.update sample .symLoad [el 3 1 3 0 0 0])) =
    some (.container (.conflictID 3)) := by decide
example : outcome (build (Function.update sample .voltageRegulator [el 9 0 0 5 0 0, el 10 0 0 5 0 0])) =
    some .duplicativelyRegulatedObject := by decide
example : outcome (build (Function.update sample .voltageRegulator [el 9 0 0 3 0 0])) =
    some (.invalidRegulatedObject 3) := by decide
example : outcome (build (Function.update sample .tapRegulator [el 8 0 0 4 0 2])) =
    some (.missingCaseForEnum 2) := by decide

end PGM.Input
