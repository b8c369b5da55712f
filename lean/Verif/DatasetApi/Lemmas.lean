import Verif.DatasetApi.Spec

namespace PGM.DatasetApi

open PGM.Datasets

variable {M : MetaData} {w w' : World} {h h' : CApi.Handle}

/-- What is reported of a component. -/
def entry (c : Component) : Nat × Int × Int := (c.name, c.perScenario, c.total)

/-- The world agrees with what was seen. -/
def Agrees (M : MetaData) (w : World) (seen : List Seen) : Prop :=
  ∀ (d : Nat) (O : Object), w[d]? = some (some O) →
    O.set.components.map entry = accepted seen d ∧ madeAs seen d = some (O.type, O.set.isBatch, (O.set.batchSize : Int)) ∧ M O.type = some O.set.info

/-- A step is a body that returned, with no error (or a destruction), or an exception. -/
theorem step_cases {c : Call} {r : Ret} (hs : step M w h c = some ((w', r), h')) :
    (body M w c = some (.ok (w', r)) ∧ (h' = {} ∨ ∃ d, c = .destroy d)) ∨
      (∃ e, body M w c = some (.error e) ∧ w' = w ∧ r = emptyRet c ∧ h' = CApi.defaultHandler 1 e {}) := by
  unfold step at hs
  split at hs
  · cases hs
  · rename_i d r' hb
    simp only [Option.some.injEq, Prod.mk.injEq] at hs
    obtain ⟨rfl, rfl⟩ := hs
    exact Or.inl ⟨hb, Or.inr ⟨d, rfl⟩⟩
  · rename_i r' _ hb
    cases r' with
    | ok x =>
      simp only [CApi.callWithCatch, Option.map_some, Option.some.injEq, Prod.mk.injEq] at hs
      obtain ⟨rfl, rfl⟩ := hs
      exact Or.inl ⟨hb, Or.inl rfl⟩
    | error e =>
      simp only [CApi.callWithCatch, Option.map_some, Option.some.injEq, Prod.mk.injEq] at hs
      obtain ⟨⟨rfl, rfl⟩, rfl⟩ := hs
      exact Or.inr ⟨e, hb, rfl, rfl, rfl⟩

/-- A body that returns, other than a destruction. -/
theorem step_ok {c : Call} {x : World × Ret} (hb : body M w c = some (.ok x)) (hc : ∀ d, c ≠ .destroy d) : step M w h c = some (x, {}) := by
  unfold step
  rw [hb]
  cases c <;> first | rfl | exact absurd rfl (hc _)

/-- A body that throws. -/
theorem step_error {c : Call} {e : CApi.Exn} (hb : body M w c = some (.error e)) : step M w h c = some ((w, emptyRet c), CApi.defaultHandler 1 e {}) := by
  unfold step
  rw [hb]
  cases c <;> rfl

theorem handler_code (e : CApi.Exn) : (CApi.defaultHandler 1 e {}).errCode = 1 := by cases e <;> rfl

theorem safePtr_ok {α β : Type} {p : Option α} {f : α → Outcome β} {x : β} (hx : safePtr p f = some (.ok x)) : ∃ a, p = some a ∧ f a = some (.ok x) := by
  cases p with
  | none => simp [safePtr] at hx
  | some a => exact ⟨a, rfl, hx⟩

theorem deref_ok {β : Type} {p : Option Nat} {f : Nat → Object → Outcome β} {x : β} (hx : deref w p f = some (.ok x)) :
    ∃ d O, p = some d ∧ w[d]? = some (some O) ∧ f d O = some (.ok x) := by
  obtain ⟨d, rfl, hd⟩ := safePtr_ok hx
  split at hd
  · rename_i O hO
    exact ⟨d, O, rfl, hO, hd⟩
  · cases hd

theorem lift_ok {α β : Type} {r : Except Err α} {f : α → Outcome β} {x : β} (hx : lift r f = some (.ok x)) : ∃ a, r = .ok a ∧ f a = some (.ok x) := by
  unfold lift at hx
  split at hx
  · exact ⟨_, rfl, hx⟩
  · cases hx
  · simp at hx

theorem componentAt_ok {O : Object} {i : Int} {f : Component → Ret} {x : World × Ret} (hx : componentAt O i f w = some (.ok x)) : x.1 = w := by
  unfold componentAt at hx
  split at hx
  · simp at hx
  · split at hx
    · simp at hx
    · simp only [Option.some.injEq, Except.ok.injEq] at hx
      rw [← hx]

theorem create_ok {m : Meta} {b : Bool} {n : Int} {D : Dataset} (hc : Datasets.create m b n = .ok D) :
    D.info = m ∧ D.isBatch = b ∧ (D.batchSize : Int) = n ∧ D.components = [] := by
  unfold Datasets.create at hc
  split at hc
  · cases hc
  · split at hc
    · cases hc
    · rename_i h1 h2
      cases hc
      refine ⟨rfl, rfl, ?_, rfl⟩
      show ((n.toNat : Nat) : Int) = n
      omega

theorem addBuffer_ok {D D' : Dataset} {c : Nat} {e t : Int} {ip : Option (List Int)} {p : Option Ptr} (ha : Datasets.addBuffer D c e t ip p = .ok D') :
    D'.info = D.info ∧ D'.isBatch = D.isBatch ∧ D'.batchSize = D.batchSize ∧ D'.components.map entry = D.components.map entry ++ [(c, e, t)] := by
  unfold Datasets.addBuffer at ha
  split at ha
  · cases ha
  · unfold addComponent at ha
    split at ha
    · cases ha
    · split at ha
      · cases ha
      · split at ha
        · cases ha
          exact ⟨rfl, rfl, rfl, by simp [entry]⟩
        · cases ha

theorem addAttribute_ok {D D' : Dataset} {c a : Nat} {p : Option Ptr} (ha : Datasets.addAttribute D c a p = .ok D') :
    D'.info = D.info ∧ D'.isBatch = D.isBatch ∧ D'.batchSize = D.batchSize ∧ D'.components.map entry = D.components.map entry := by
  unfold Datasets.addAttribute at ha
  split at ha
  · cases ha
  · rename_i i _
    split at ha
    · cases ha
    · rename_i x hx
      split at ha
      · cases ha
      · split at ha
        · cases ha
        · split at ha
          · cases ha
          · split at ha
            · cases ha
              refine ⟨rfl, rfl, rfl, ?_⟩
              show (D.components.set i _).map entry = _
              apply List.ext_getElem?
              intro j
              rw [List.getElem?_map, List.getElem?_map, List.getElem?_set]
              by_cases hij : i = j
              · subst hij
                have hlt : i < D.components.length := by
                  rw [List.getElem?_eq_some_iff] at hx
                  exact hx.1
                rw [if_pos rfl, if_pos hlt, hx]
                rfl
              · rw [if_neg hij]
            · cases ha

theorem convert_entry (D : Dataset) : (Datasets.convert D).components.map entry = D.components.map entry := by
  simp [Datasets.convert, entry, Function.comp_def]

/-- A dataset among those after a new one was made. -/
theorem append_cases {O O' : Object} {d : Nat} (hd : (w ++ [some O'])[d]? = some (some O)) :
    (d < w.length ∧ w[d]? = some (some O)) ∨ (d = w.length ∧ O = O') := by
  by_cases hlt : d < w.length
  · rw [List.getElem?_append_left hlt] at hd
    exact Or.inl ⟨hlt, hd⟩
  · rw [List.getElem?_append_right (by omega)] at hd
    by_cases hz : d - w.length = 0
    · rw [hz] at hd
      simp only [List.getElem?_cons_zero, Option.some.injEq] at hd
      exact Or.inr ⟨by omega, hd.symm⟩
    · obtain ⟨k, hk⟩ := Nat.exists_eq_succ_of_ne_zero hz
      rw [hk] at hd
      simp at hd

/-- A dataset among those after one was changed. -/
theorem set_cases {O : Object} {X : Option Object} {d k : Nat} (hd : (w.set k X)[d]? = some (some O)) :
    (d ≠ k ∧ w[d]? = some (some O)) ∨ (d = k ∧ X = some O) := by
  rw [List.getElem?_set] at hd
  split at hd
  · rename_i hk
    split at hd
    · simp only [Option.some.injEq] at hd
      exact Or.inr ⟨hk.symm, hd⟩
    · cases hd
  · rename_i hk
    exact Or.inl ⟨fun e => hk e.symm, hd⟩

/-- An exception adds nothing to what was accepted. -/
theorem error_spec (c : Call) (seen : List Seen) (d : Nat) (n : Nat) (hn : n ≠ 0) :
    accepted ((c, emptyRet c, n) :: seen) d = accepted seen d ∧ madeAs ((c, emptyRet c, n) :: seen) d = madeAs seen d := by
  cases c with
  | create t b s => cases t <;> simp [accepted, madeAs, emptyRet]
  | convert s => cases s <;> simp [accepted, madeAs, emptyRet]
  | addBuffer x c e t i p => cases x <;> cases c <;> simp [accepted, madeAs, hn]
  | _ => simp [accepted, madeAs]

theorem agrees_step {c : Call} {r : Ret} {seen : List Seen} (ha : Agrees M w seen) (hs : step M w h c = some ((w', r), h')) :
    Agrees M w' ((c, r, h'.errCode) :: seen) := by
  rcases step_cases hs with ⟨hb, hh⟩ | ⟨e, hb, rfl, rfl, rfl⟩
  · have hcode : (∀ d, c ≠ .destroy d) → h'.errCode = 0 := by
      intro hc
      rcases hh with rfl | ⟨d, rfl⟩
      · rfl
      · exact absurd rfl (hc d)
    cases c with
    | create t b n =>
      obtain ⟨t, rfl, hb1⟩ := safePtr_ok hb
      split at hb1
      · simp at hb1
      · rename_i m hm
        obtain ⟨D, hD, hb⟩ := lift_ok hb1
        simp only [Option.some.injEq, Except.ok.injEq, Prod.mk.injEq] at hb
        obtain ⟨rfl, rfl⟩ := hb
        obtain ⟨h1, h2, h3, h4⟩ := create_ok hD
        intro d O hd
        rcases append_cases hd with ⟨hlt, hd⟩ | ⟨rfl, rfl⟩
        · have hne : ¬ (Ret.ptr (some w.length) = Ret.ptr (some d)) := by simp; omega
          simp only [accepted, madeAs, if_neg hne]
          exact ha d O hd
        · refine ⟨by simp [accepted, h4], ?_, by simpa [h1] using hm⟩
          simp [madeAs, h2, h3, safeBool]
    | convert s =>
      obtain ⟨s, S, rfl, hS, hb⟩ := deref_ok hb
      simp only [Option.some.injEq, Except.ok.injEq, Prod.mk.injEq] at hb
      obtain ⟨rfl, rfl⟩ := hb
      intro d O hd
      rcases append_cases hd with ⟨hlt, hd⟩ | ⟨rfl, rfl⟩
      · have hne : ¬ (Ret.ptr (some w.length) = Ret.ptr (some d)) := by simp; omega
        simp only [accepted, madeAs, if_neg hne]
        exact ha d O hd
      · have := ha s S hS
        refine ⟨?_, ?_, this.2.2⟩
        · simp only [accepted, if_true]
          rw [convert_entry, this.1]
        · simp only [madeAs, if_true]
          exact this.2.1
    | destroy s =>
      have hspec : ∀ d, accepted ((Call.destroy s, r, h'.errCode) :: seen) d = accepted seen d ∧ madeAs ((Call.destroy s, r, h'.errCode) :: seen) d = madeAs seen d :=
        fun d => by simp [accepted, madeAs]
      intro d O hd
      rw [(hspec d).1, (hspec d).2]
      cases s with
      | none =>
        simp only [body, Option.some.injEq, Except.ok.injEq, Prod.mk.injEq] at hb
        obtain ⟨rfl, rfl⟩ := hb
        exact ha d O hd
      | some s =>
        obtain ⟨s, S, _, hS, hb⟩ := deref_ok hb
        simp only [Option.some.injEq, Except.ok.injEq, Prod.mk.injEq] at hb
        obtain ⟨rfl, rfl⟩ := hb
        rcases set_cases hd with ⟨_, hd⟩ | ⟨_, hX⟩
        · exact ha d O hd
        · cases hX
    | addBuffer x c e t ip p =>
      obtain ⟨x, X, rfl, hX, hb1⟩ := deref_ok hb
      obtain ⟨c, rfl, hb2⟩ := safePtr_ok hb1
      obtain ⟨D, hD, hb⟩ := lift_ok hb2
      simp only [Option.some.injEq, Except.ok.injEq, Prod.mk.injEq] at hb
      obtain ⟨rfl, rfl⟩ := hb
      rw [hcode (by intro d; simp)]
      obtain ⟨h1, h2, h3, h4⟩ := addBuffer_ok hD
      intro d O hd
      rcases set_cases hd with ⟨hne, hd⟩ | ⟨rfl, hO⟩
      · have hne' : ¬ (x = d ∧ True) := fun hx => hne hx.1.symm
        simp only [accepted, madeAs, if_neg hne']
        exact ha d O hd
      · cases hO
        have := ha d X hX
        refine ⟨?_, ?_, ?_⟩
        · simp only [accepted, and_self, if_true]
          rw [h4, this.1]
        · simp only [madeAs, h2, h3]
          exact this.2.1
        · show M X.type = some D.info
          rw [h1]
          exact this.2.2
    | addAttribute x c a p =>
      obtain ⟨x, X, rfl, hX, hb1⟩ := deref_ok hb
      obtain ⟨c, rfl, hb2⟩ := safePtr_ok hb1
      obtain ⟨a, rfl, hb3⟩ := safePtr_ok hb2
      obtain ⟨D, hD, hb⟩ := lift_ok hb3
      simp only [Option.some.injEq, Except.ok.injEq, Prod.mk.injEq] at hb
      obtain ⟨rfl, rfl⟩ := hb
      obtain ⟨h1, h2, h3, h4⟩ := addAttribute_ok hD
      intro d O hd
      simp only [accepted, madeAs]
      rcases set_cases hd with ⟨hne, hd⟩ | ⟨rfl, hO⟩
      · exact ha d O hd
      · cases hO
        have := ha d X hX
        refine ⟨by rw [← this.1]; exact h4, ?_, ?_⟩
        · simp only [h2, h3]
          exact this.2.1
        · show M X.type = some D.info
          rw [h1]
          exact this.2.2
    | getInfo x | infoName x | isBatch x | batchSize x | nComponents x =>
      obtain ⟨x, X, rfl, hX, hb⟩ := deref_ok hb
      simp only [Option.some.injEq, Except.ok.injEq, Prod.mk.injEq] at hb
      obtain ⟨rfl, rfl⟩ := hb
      intro d O hd
      simp only [accepted, madeAs]
      exact ha d O hd
    | componentName x i | perScenario x i | total x i =>
      obtain ⟨x, X, rfl, hX, hb⟩ := deref_ok hb
      have hw := componentAt_ok hb
      simp only at hw
      subst hw
      intro d O hd
      simp only [accepted, madeAs]
      exact ha d O hd
  · intro d O hd
    rw [(error_spec c seen d _ (by rw [handler_code]; decide)).1, (error_spec c seen d _ (by rw [handler_code]; decide)).2]
    exact ha d O hd

theorem agrees_run {cs : List Call} {seen seen' : List Seen} (ha : Agrees M w seen) (hr : run M w h seen cs = some (w', h', seen')) : Agrees M w' seen' := by
  induction cs generalizing w h seen with
  | nil =>
    simp only [run, Option.some.injEq, Prod.mk.injEq] at hr
    obtain ⟨rfl, rfl, rfl⟩ := hr
    exact ha
  | cons c cs ih =>
    simp only [run] at hr
    split at hr
    · cases hr
    · rename_i hs
      exact ih (agrees_step ha hs) hr

/-- `decreases` finds a decrease. -/
theorem decreases_iff (l : List Int) : decreases l = false ↔ ∀ (i : Nat) (a b : Int), l[i]? = some a → l[i + 1]? = some b → a ≤ b := by
  induction l with
  | nil => simp [decreases]
  | cons x l ih =>
    cases l with
    | nil => simp [decreases]
    | cons y l =>
      simp only [decreases, Bool.or_eq_false_iff, decide_eq_false_iff_not, ih]
      constructor
      · rintro ⟨h1, h2⟩ i a b ha hb
        cases i with
        | zero =>
          simp at ha hb
          omega
        | succ i => exact h2 i a b (by simpa using ha) (by simpa using hb)
      · intro hh
        refine ⟨?_, fun i a b ha hb => hh (i + 1) a b (by simpa using ha) (by simpa using hb)⟩
        have := hh 0 x y (by simp) (by simp)
        omega

end PGM.DatasetApi
