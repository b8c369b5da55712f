import Verif.DatasetApi.Lemmas

/-!
# The functions of the C API on datasets (C65)
-/

namespace PGM.DatasetApi

open PGM.Datasets

variable {M : MetaData} {w w' : World} {h h' : CApi.Handle} {cs : List Call} {seen : List Seen}

/-- After every sequence of calls, what the functions report of a dataset that was not destroyed is what the caller has seen: the type, kind and size with which it was created, and the components whose buffers
were accepted, in the order of the calls. A component number that is negative or not below the number of components is an error. None of these calls changes a dataset. -/
theorem info_of_history (hr : run M [] {} [] cs = some (w, h, seen)) {d : Nat} (hd : Alive w d) (g : CApi.Handle) :
    ∃ t b n, madeAs seen d = some (t, b, n) ∧
      Answers M w g (.getInfo (some d)) (.ptr (some d)) ∧
      Answers M w g (.infoName (some d)) (.name (some t)) ∧
      Answers M w g (.isBatch (some d)) (.num (if b then 1 else 0)) ∧
      Answers M w g (.batchSize (some d)) (.num n) ∧
      Answers M w g (.nComponents (some d)) (.num (accepted seen d).length) ∧
      (∀ (i : Nat) (c : Nat) (e s : Int), (accepted seen d)[i]? = some (c, e, s) →
        Answers M w g (.componentName (some d) i) (.name (some c)) ∧ Answers M w g (.perScenario (some d) i) (.num e) ∧ Answers M w g (.total (some d) i) (.num s)) ∧
      ∀ i : Int, i < 0 ∨ (accepted seen d).length ≤ i →
        Refuses M w g (.componentName (some d) i) ∧ Refuses M w g (.perScenario (some d) i) ∧ Refuses M w g (.total (some d) i) := by
  obtain ⟨O, hO⟩ := hd
  have hag : Agrees M ([] : World) [] := by
    intro d O hd
    simp at hd
  obtain ⟨h1, h2, h3⟩ := agrees_run hag hr d O hO
  have hde : ∀ (f : Nat → Object → Outcome (World × Ret)), deref w (some d) f = f d O := by
    intro f
    simp [deref, safePtr, hO]
  have hat : ∀ (i : Nat) (f : Component → Ret) (c : Component), O.set.components[i]? = some c → componentAt O i f w = some (.ok (w, f c)) := by
    intro i f c hc
    have : ¬ ((i : Int) < 0) := by omega
    simp [componentAt, this, hc]
  have hno : ∀ (i : Int) (f : Component → Ret), i < 0 ∨ (accepted seen d).length ≤ i → componentAt O i f w = some (.error (.std "")) := by
    intro i f hi
    unfold componentAt
    split
    · rfl
    · rename_i hneg
      have hlen : O.set.components.length = (accepted seen d).length := by rw [← h1, List.length_map]
      have hlt : O.set.components[i.toNat]? = none := by
        rw [List.getElem?_eq_none_iff]
        omega
      rw [hlt]
  have hans : ∀ (c : Call) (r : Ret), body M w c = some (.ok (w, r)) → (∀ d, c ≠ .destroy d) → Answers M w g c r :=
    fun c r hb hc => ⟨{}, step_ok hb hc, rfl⟩
  refine ⟨O.type, O.set.isBatch, O.set.batchSize, h2, ?_, ?_, ?_, ?_, ?_, ?_, ?_⟩
  · exact hans _ _ (hde _) (by simp)
  · exact hans _ _ (hde _) (by simp)
  · exact hans _ _ (hde _) (by simp)
  · exact hans _ _ (hde _) (by simp)
  · refine hans _ _ ?_ (by simp)
    rw [← h1, List.length_map]
    exact hde _
  · intro i c e s hi
    rw [← h1, List.getElem?_map, Option.map_eq_some_iff] at hi
    obtain ⟨x, hx, hxe⟩ := hi
    simp only [entry, Prod.mk.injEq] at hxe
    obtain ⟨rfl, rfl, rfl⟩ := hxe
    exact ⟨hans _ _ ((hde _).trans (hat i _ x hx)) (by simp), hans _ _ ((hde _).trans (hat i _ x hx)) (by simp), hans _ _ ((hde _).trans (hat i _ x hx)) (by simp)⟩
  · intro i hi
    have href : ∀ c, body M w c = some (.error (.std "")) → (emptyRet c = .num 0 ∨ emptyRet c = .name none) → Refuses M w g c := by
      intro c hb hc
      refine ⟨_, _, step_error hb, by rw [handler_code]; decide, ?_⟩
      rcases hc with hc | hc <;> simp [hc]
    exact ⟨href _ ((hde _).trans (hno i _ hi)) (Or.inr rfl), href _ ((hde _).trans (hno i _ hi)) (Or.inl rfl), href _ ((hde _).trans (hno i _ hi)) (Or.inl rfl)⟩

/-- A dataset is made exactly if the type exists, the size is not negative, and the size is one unless it is a batch; it gets a pointer that no dataset had before. Otherwise the call is refused. -/
theorem create_exactly (t : Nat) (b n : Int) :
    ((∃ m, M t = some m) ∧ 0 ≤ n ∧ (b = 0 → n = 1) → ¬ Alive w w.length ∧ ∃ w1 h1, step M w h (.create (some t) b n) = some ((w1, .ptr (some w.length)), h1) ∧ h1.errCode = 0 ∧ Alive w1 w.length) ∧
      (¬ ((∃ m, M t = some m) ∧ 0 ≤ n ∧ (b = 0 → n = 1)) → Refuses M w h (.create (some t) b n)) := by
  constructor
  · rintro ⟨⟨m, hm⟩, hn, hb⟩
    have hneg : ¬ (n < 0) := by omega
    have hone : ¬ (safeBool b = false ∧ n ≠ 1) := by
      rintro ⟨h1, h2⟩
      simp [safeBool] at h1
      exact h2 (hb h1)
    have hc : body M w (.create (some t) b n) = some (.ok (w ++ [some ⟨t, ⟨m, safeBool b, n.toNat, []⟩⟩], .ptr (some w.length))) := by
      simp only [body, safePtr, hm, lift, Datasets.create, if_neg hneg, if_neg hone]
    refine ⟨?_, _, {}, step_ok hc (by simp), rfl, ?_⟩
    · simp [Alive]
    · exact ⟨_, by rw [List.getElem?_append_right (Nat.le_refl _), Nat.sub_self]; rfl⟩
  · intro hnot
    have hc : body M w (.create (some t) b n) = some (.error (.std "")) := by
      simp only [body, safePtr]
      cases hm : M t with
      | none => rfl
      | some m =>
        simp only [Datasets.create]
        by_cases hneg : n < 0
        · rw [if_pos hneg]
          rfl
        · rw [if_neg hneg]
          by_cases hone : safeBool b = false ∧ n ≠ 1
          · rw [if_pos hone]
            rfl
          · refine absurd ⟨⟨m, hm⟩, by omega, ?_⟩ hnot
            intro hb
            by_contra hn
            exact hone ⟨by simp [safeBool, hb], hn⟩
    exact ⟨_, _, step_error hc, by rw [handler_code]; decide, Or.inr (Or.inl rfl)⟩

/-- After every sequence of calls, a buffer is accepted exactly if the type of the dataset has the component, no buffer of the component was accepted before, and the sizes fit; otherwise the call is refused. -/
theorem add_buffer_exactly (hr : run M [] {} [] cs = some (w, h, seen)) {d : Nat} (hd : Alive w d) {t : Nat} {b : Bool} {n : Nat} (hm : madeAs seen d = some (t, b, (n : Int))) (g : CApi.Handle)
    (c : Nat) (e s : Int) (ip : Option (List Int)) (p : Option Ptr) (hip : Readable n e ip) :
    ((∃ m, M t = some m ∧ m.hasComponent c = true) ∧ c ∉ (accepted seen d).map (·.1) ∧ SizesFit n e s ip →
        ∃ w1 h1, step M w g (.addBuffer (some d) (some c) e s ip p) = some ((w1, .nothing), h1) ∧ h1.errCode = 0) ∧
      (¬ ((∃ m, M t = some m ∧ m.hasComponent c = true) ∧ c ∉ (accepted seen d).map (·.1) ∧ SizesFit n e s ip) → Refuses M w g (.addBuffer (some d) (some c) e s ip p)) := by
  obtain ⟨O, hO⟩ := hd
  have hag : Agrees M ([] : World) [] := by
    intro d O hd
    simp at hd
  obtain ⟨h1, h2, h3⟩ := agrees_run hag hr d O hO
  rw [hm] at h2
  simp only [Option.some.injEq, Prod.mk.injEq] at h2
  obtain ⟨rfl, rfl, h2⟩ := h2
  have hn : n = O.set.batchSize := by omega
  have hbody : body M w (.addBuffer (some d) (some c) e s ip p) =
      lift (Datasets.addBuffer O.set c e s ip p) fun D => some (.ok (w.set d (some { O with set := D }), .nothing)) := by
    simp [body, deref, safePtr, hO]
  have hfind : (find O.set c).isSome = true ↔ c ∈ (accepted seen d).map (·.1) := by
    rw [← h1, find]
    simp [List.findIdx?_isSome, entry]
  have hcomp : (∃ m, M O.type = some m ∧ m.hasComponent c = true) ↔ O.set.info.hasComponent c = true := by
    rw [h3]
    simp
  -- the check of the sizes
  have hsizes : SizesFit n e s ip ↔ checkNonUniform O.set e s ip = .ok () ∧ checkUniform O.set e s = .ok () := by
    unfold SizesFit checkNonUniform checkUniform
    by_cases he : e < 0
    · have he' : ¬ (0 ≤ e) := by omega
      cases ip with
      | none => simp [he, he']
      | some q =>
        have hq := hip q he rfl
        have hlen : ¬ (q.length < O.set.batchSize + 1) := by omega
        have hhead : (q.take (O.set.batchSize + 1)).head? = q[0]? := by
          rw [List.head?_eq_getElem?, List.getElem?_take]
          simp
        have hlast : (q.take (O.set.batchSize + 1)).getLast? = q[n]? := by
          rw [List.getLast?_eq_getElem?, List.length_take, List.getElem?_take]
          rw [if_pos (by omega)]
          congr 1
          omega
        have hdec : decreases (q.take (O.set.batchSize + 1)) = false ↔ ∀ (i : Nat) (a b : Int), i < n → q[i]? = some a → q[i + 1]? = some b → a ≤ b := by
          rw [decreases_iff]
          constructor
          · intro hh i a b hi ha hb
            exact hh i a b (by rw [List.getElem?_take, if_pos (by omega)]; exact ha) (by rw [List.getElem?_take, if_pos (by omega)]; exact hb)
          · intro hh i a b ha hb
            rw [List.getElem?_take] at ha hb
            split at hb
            · rw [if_pos (by omega)] at ha
              exact hh i a b (by omega) ha hb
            · cases hb
        simp only [he', false_and, false_or, he, true_and, if_true, if_false, if_neg hlen, hhead, hlast, Option.some.injEq, exists_eq_left']
        rw [← hdec]
        by_cases g1 : q[0]? = some 0
        · by_cases g2 : q[n]? = some s
          · by_cases g3 : decreases (q.take (O.set.batchSize + 1)) = false
            · simp [g1, g2, g3]
            · simp [g1, g2, g3]
          · simp [g1, g2]
        · simp [g1]
    · have he' : 0 ≤ e := by omega
      cases ip with
      | none =>
        simp only [he, he', true_and, false_and, or_false, if_false, Option.isSome_none, Bool.false_eq_true]
        subst hn
        by_cases g1 : s = O.set.batchSize * e
        · have : e * (O.set.batchSize : Int) = s := by rw [g1, Int.mul_comm]
          simp [g1, Int.mul_comm]
        · have : ¬ (e * (O.set.batchSize : Int) = s) := fun hx => g1 (by rw [← hx, Int.mul_comm])
          simp [g1, this]
      | some q => simp [he]
  constructor
  · rintro ⟨g1, g2, g3⟩
    rw [hsizes] at g3
    rw [hcomp] at g1
    rw [← hfind] at g2
    have hadd : ∃ D, Datasets.addBuffer O.set c e s ip p = .ok D := by
      simp [Datasets.addBuffer, addComponent, g1, g2, g3.1, g3.2]
    obtain ⟨D, hD⟩ := hadd
    rw [hD] at hbody
    exact ⟨_, {}, step_ok hbody (by simp), rfl⟩
  · intro hnot
    have hadd : ∃ x, Datasets.addBuffer O.set c e s ip p = .error x ∧ x ≠ .undefined := by
      rw [hcomp, ← hfind, hsizes] at hnot
      unfold Datasets.addBuffer addComponent
      cases hc1 : checkNonUniform O.set e s ip with
      | error x =>
        refine ⟨x, rfl, ?_⟩
        rintro rfl
        unfold checkNonUniform at hc1
        split at hc1
        · rename_i he
          split at hc1
          · cases hc1
          · rename_i q
            have hq := hip q he rfl
            split at hc1
            · omega
            · split at hc1
              · cases hc1
              · split at hc1 <;> cases hc1
        · split at hc1 <;> cases hc1
      | ok _ =>
        simp only
        split
        · exact ⟨_, rfl, by simp⟩
        · rename_i hf
          cases hc2 : checkUniform O.set e s with
          | error x =>
            refine ⟨x, rfl, ?_⟩
            rintro rfl
            unfold checkUniform at hc2
            split at hc2 <;> cases hc2
          | ok _ =>
            simp only
            split
            · rename_i hc
              exact absurd ⟨hc, hf, hc1, hc2⟩ hnot
            · exact ⟨_, rfl, by simp⟩
    obtain ⟨x, hx, hxu⟩ := hadd
    have hb : body M w (.addBuffer (some d) (some c) e s ip p) = some (.error (.std "")) := by
      rw [hbody, hx]
      cases x <;> first | rfl | exact absurd rfl hxu
    exact ⟨_, _, step_error hb, by rw [handler_code]; decide, Or.inl rfl⟩

/-- A call that reports an error changes no dataset and returns the empty value. -/
theorem failed_call (c : Call) (hc : ∀ d, c ≠ .destroy d) {r : Ret} (hs : step M w h c = some ((w', r), h')) (he : h'.errCode ≠ 0) :
    w' = w ∧ (r = .nothing ∨ r = .ptr none ∨ r = .num 0 ∨ r = .name none) := by
  rcases step_cases hs with ⟨_, rfl | ⟨d, rfl⟩⟩ | ⟨e, _, rfl, rfl, rfl⟩
  · exact absurd rfl he
  · exact absurd rfl (hc d)
  · refine ⟨rfl, ?_⟩
    cases c <;> simp [emptyRet]

/-- A call changes at most the dataset that it names: every other dataset that exists stays as it is. -/
theorem other_datasets (c : Call) {r : Ret} (hs : step M w h c = some ((w', r), h')) {d : Nat} (hd : d < w.length)
    (hc : c ≠ .destroy (some d) ∧ (∀ x e s i p, c ≠ .addBuffer (some d) x e s i p) ∧ ∀ x a p, c ≠ .addAttribute (some d) x a p) : w'[d]? = w[d]? := by
  rcases step_cases hs with ⟨hb, _⟩ | ⟨e, _, rfl, rfl, rfl⟩
  swap
  · rfl
  cases c with
  | create t b n =>
    obtain ⟨t, rfl, hb1⟩ := safePtr_ok hb
    split at hb1
    · simp at hb1
    · obtain ⟨D, hD, hb2⟩ := lift_ok hb1
      simp only [Option.some.injEq, Except.ok.injEq, Prod.mk.injEq] at hb2
      rw [← hb2.1, List.getElem?_append_left hd]
  | convert s =>
    obtain ⟨s, S, rfl, hS, hb1⟩ := deref_ok hb
    simp only [Option.some.injEq, Except.ok.injEq, Prod.mk.injEq] at hb1
    rw [← hb1.1, List.getElem?_append_left hd]
  | destroy s =>
    cases s with
    | none =>
      simp only [body, Option.some.injEq, Except.ok.injEq, Prod.mk.injEq] at hb
      rw [← hb.1]
    | some s =>
      obtain ⟨k, S, hk, hS, hb1⟩ := deref_ok hb
      simp only [Option.some.injEq, Except.ok.injEq, Prod.mk.injEq] at hb1
      cases hk
      rw [← hb1.1, List.getElem?_set_ne]
      rintro rfl
      exact hc.1 rfl
  | addBuffer x c e t ip p =>
    obtain ⟨x, X, rfl, hX, hb1⟩ := deref_ok hb
    obtain ⟨c, rfl, hb2⟩ := safePtr_ok hb1
    obtain ⟨D, hD, hb3⟩ := lift_ok hb2
    simp only [Option.some.injEq, Except.ok.injEq, Prod.mk.injEq] at hb3
    rw [← hb3.1, List.getElem?_set_ne]
    rintro rfl
    exact hc.2.1 _ _ _ _ _ rfl
  | addAttribute x c a p =>
    obtain ⟨x, X, rfl, hX, hb1⟩ := deref_ok hb
    obtain ⟨c, rfl, hb2⟩ := safePtr_ok hb1
    obtain ⟨a, rfl, hb3⟩ := safePtr_ok hb2
    obtain ⟨D, hD, hb4⟩ := lift_ok hb3
    simp only [Option.some.injEq, Except.ok.injEq, Prod.mk.injEq] at hb4
    rw [← hb4.1, List.getElem?_set_ne]
    rintro rfl
    exact hc.2.2 _ _ _ rfl
  | getInfo x | infoName x | isBatch x | batchSize x | nComponents x =>
    obtain ⟨x, X, rfl, hX, hb1⟩ := deref_ok hb
    simp only [Option.some.injEq, Except.ok.injEq, Prod.mk.injEq] at hb1
    rw [← hb1.1]
  | componentName x i | perScenario x i | total x i =>
    obtain ⟨x, X, rfl, hX, hb1⟩ := deref_ok hb
    have hw := componentAt_ok hb1
    simp only at hw
    rw [hw]

/-- A null pointer instead of a dataset is refused by every function but destruction, and so is a null pointer instead of a name. -/
theorem null_pointers (c : Call)
    (hc : (∃ b n, c = .create none b n) ∨ c = .convert none ∨ (∃ x e s i p, c = .addBuffer none x e s i p) ∨ (∃ x a p, c = .addAttribute none x a p) ∨ c = .getInfo none ∨ c = .infoName none ∨ c = .isBatch none ∨
      c = .batchSize none ∨ c = .nComponents none ∨ (∃ i, c = .componentName none i ∨ c = .perScenario none i ∨ c = .total none i) ∨
      ∃ d, Alive w d ∧ ((∃ e s i p, c = .addBuffer (some d) none e s i p) ∨ (∃ a p, c = .addAttribute (some d) none a p) ∨ ∃ x p, c = .addAttribute (some d) (some x) none p)) :
    Refuses M w h c := by
  have hb : body M w c = some (.error (.std "")) := by
    rcases hc with ⟨b, n, rfl⟩ | rfl | ⟨x, e, s, i, p, rfl⟩ | ⟨x, a, p, rfl⟩ | rfl | rfl | rfl | rfl | rfl | ⟨i, rfl | rfl | rfl⟩ | ⟨d, ⟨O, hO⟩, ⟨e, s, i, p, rfl⟩ | ⟨a, p, rfl⟩ | ⟨x, p, rfl⟩⟩
    all_goals first | rfl | simp [body, deref, safePtr, hO]
  refine ⟨_, _, step_error hb, by rw [handler_code]; decide, ?_⟩
  cases c <;> simp [emptyRet]

/-! ## Non-vacuity, and a deviation from the documentation -/

namespace Example

/-- One type of dataset, 7, with the components 1 and 2; every component has attribute 5. -/
def metaData : MetaData := fun t => if t = 7 then some ⟨fun c => c == 1 || c == 2, fun _ a => a == 5⟩ else none

/-- A dataset with two scenarios, a buffer of each component, one refused buffer, a copy, and the destruction of the original. -/
def calls : List Call :=
  [.create (some 7) 1 2, .addBuffer (some 0) (some 1) 3 6 none (some ⟨0, 0⟩), .addBuffer (some 0) (some 1) 3 6 none (some ⟨0, 0⟩), .addBuffer (some 0) (some 2) (-1) 3 (some [0, 1, 3]) none, .convert (some 0),
    .addAttribute (some 1) (some 2) (some 5) (some ⟨1, 0⟩), .destroy (some 0)]

theorem calls_run : ∃ w h seen, run metaData [] {} [] calls = some (w, h, seen) ∧ Alive w 1 ∧ madeAs seen 1 = some (7, true, 2) ∧ accepted seen 1 = [(1, 3, 6), (2, -1, 3)] ∧ ¬ Alive w 0 := by
  refine ⟨_, _, _, rfl, ⟨_, rfl⟩, by decide, by decide, ?_⟩
  rintro ⟨O, hO⟩
  cases hO

example : ∃ w h seen, run metaData [] {} [] calls = some (w, h, seen) ∧ Answers metaData w {} (.nComponents (some 1)) (.num 2) ∧ Answers metaData w {} (.total (some 1) 1) (.num 3) ∧
    Refuses metaData w {} (.total (some 1) 2) := by
  obtain ⟨w, h, seen, hr, ha, hm, hacc, _⟩ := calls_run
  obtain ⟨t, b, n, _, _, _, _, _, h5, h6, h7⟩ := info_of_history hr ha {}
  rw [hacc] at h5 h6 h7
  exact ⟨w, h, seen, hr, h5, (h6 1 2 (-1) 3 rfl).2.2, (h7 2 (Or.inr (by decide))).2.2⟩

/-- The index pointer `[0, 1, 3]` fits two scenarios with three elements. -/
example : SizesFit 2 (-1) 3 (some [0, 1, 3]) ∧ Readable 2 (-1) (some [0, 1, 3]) := by
  refine ⟨Or.inr ⟨by decide, _, rfl, rfl, rfl, ?_⟩, by rintro p _ ⟨⟩; decide⟩
  intro i a b hi ha hb
  match i, hi with
  | 0, _ => cases ha; cases hb; decide
  | 1, _ => cases ha; cases hb; decide

/-- `dataset.h` documents that the number of elements per scenario of a component that is not uniform is given and reported as -1. Any other negative number is accepted as well, and is then reported. -/
theorem other_negative_reported : ∃ w h seen, run metaData [] {} [] [.create (some 7) 1 2, .addBuffer (some 0) (some 2) (-5) 3 (some [0, 1, 3]) none] = some (w, h, seen) ∧ h.errCode = 0 ∧
    Answers metaData w h (.perScenario (some 0) 0) (.num (-5)) := by
  exact ⟨_, _, _, rfl, rfl, ⟨_, rfl, rfl⟩⟩

end Example

end PGM.DatasetApi
