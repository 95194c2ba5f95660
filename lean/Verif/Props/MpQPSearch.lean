import Verif.Props.MpQPSolution
import Mathlib.Data.Set.Finite.List

/-
Properties of the search of the critical regions, `explicit_solve` of
`/repo/pympc/optimization/parametric_programs.py` (C43, C84).
-/
namespace Verif.Props
open Finset Verif.MpQP

variable {nu nx : ℕ} {q : MpQP}

theorem neighbours_like {L : Lib} {step : ℝ} {cr0 cr : CritReg} {l : List (Vec ℝ × List ℕ)}
    (h : neighbours L step cr0 = .ok (l, cr)) : Like cr cr0 := by
  unfold neighbours at h
  cases hmf : (Poly.minimal_facets L 1e-7 cr0.polyhedron).1 with
  | error e => rw [hmf] at h; cases h
  | ok o =>
    rw [hmf, Py.ok_bind] at h
    cases o with
    | none => cases h
    | some mf =>
      simp only at h
      cases hl : mf.mapM (beyondFacet L step
          { cr0 with polyhedron := (Poly.minimal_facets L 1e-7 cr0.polyhedron).2 }) with
      | error e => rw [hl] at h; cases h
      | ok l' =>
        rw [hl] at h
        cases h
        refine ⟨_, ?_, rfl⟩
        rw [minimal_facets_state]
        exact empty_sameData L _

/-- whatever the point and the guess, the region is the one of an active set -/
theorem point_from {L : Lib} {x : Vec ℝ} {guess : Option (List ℕ)} {cr : CritReg}
    (h : q.explicit_solve_given_point L x guess = .ok (some cr)) :
    ∃ a, q.explicit_solve_given_active_set a = .ok (some cr) := by
  have hthen : q.solveThenExplicit L x = .ok (some cr) →
      ∃ a, q.explicit_solve_given_active_set a = .ok (some cr) := by
    intro h
    unfold solveThenExplicit at h
    cases hs : q.solve L x with
    | error e => rw [hs] at h; cases h
    | ok s =>
      rw [hs, Py.ok_bind] at h
      cases ha : s.active_set with
      | none => rw [ha] at h; cases h
      | some a => rw [ha] at h; exact ⟨a, h⟩
  cases guess with
  | none => exact hthen h
  | some a =>
    unfold explicit_solve_given_point at h
    simp only at h
    cases ha : q.explicit_solve_given_active_set a with
    | error e => rw [ha] at h; cases h
    | ok o =>
      rw [ha, Py.ok_bind] at h
      cases o with
      | none => exact hthen h
      | some cr' =>
        simp only at h
        cases hc : cr'.contains x with
        | error e => rw [hc] at h; cases h
        | ok r =>
          rw [hc, Py.ok_bind] at h
          cases r with
          | true => cases h; exact ⟨a, ha⟩
          | false => exact hthen h

theorem covered_cases {found : List CritReg} {x : Vec ℝ} {r : Bool} (h : covered found x = .ok r) :
    (r = true → ∃ cr ∈ found, cr.contains x = .ok true) ∧
    (r = false → ∀ cr ∈ found, cr.contains x = .ok false) := by
  unfold covered at h
  cases hm : found.mapM fun cr => cr.contains x with
  | error e => rw [hm] at h; cases h
  | ok cs =>
    rw [hm] at h
    cases h
    obtain ⟨h1, h2⟩ := mapM_ok_iff hm
    constructor
    · intro h
      rw [List.any_eq_true] at h
      obtain ⟨c, hc, hc'⟩ := h
      obtain ⟨i, hi, rfl⟩ := List.getElem_of_mem hc
      refine ⟨found[i]'(h1 ▸ hi), List.getElem_mem _, ?_⟩
      rw [h2 i (h1 ▸ hi) hi]
      exact congrArg _ hc'
    · intro h cr hcr
      rw [List.any_eq_false] at h
      obtain ⟨i, hi, rfl⟩ := List.getElem_of_mem hcr
      rw [h2 i hi (h1 ▸ hi)]
      have := h _ (List.getElem_mem (l := cs) (n := i) (h1 ▸ hi))
      simp only [id, Bool.not_eq_true] at this
      rw [this]

theorem uncovered_cases {found : List CritReg} {l r : List (Vec ℝ × List ℕ)}
    (h : uncovered found l = .ok r) : r.Sublist l ∧
      (∀ xa ∈ r, ∀ cr ∈ found, cr.contains xa.1 = .ok false) ∧
      ∀ xa ∈ l, xa ∈ r ∨ ∃ cr ∈ found, cr.contains xa.1 = .ok true := by
  induction l generalizing r with
  | nil => cases h; simp
  | cons xa l ih =>
    unfold uncovered at h
    cases hc : covered found xa.1 with
    | error e => rw [hc] at h; cases h
    | ok c =>
      rw [hc, Py.ok_bind] at h
      cases hl : uncovered found l with
      | error e => rw [hl] at h; cases h
      | ok l' =>
        rw [hl, Py.ok_bind] at h
        obtain ⟨i1, i2, i3⟩ := ih hl
        obtain ⟨c1, c2⟩ := covered_cases hc
        cases c with
        | true =>
          cases h
          refine ⟨i1.cons _, i2, fun ya hy => ?_⟩
          rcases List.mem_cons.1 hy with rfl | hy
          · exact .inr (c1 rfl)
          · exact i3 ya hy
        | false =>
          cases h
          refine ⟨i1.cons_cons _, fun ya hy => ?_, fun ya hy => ?_⟩
          · rcases List.mem_cons.1 hy with rfl | hy
            · exact c2 rfl
            · exact i2 ya hy
          · rcases List.mem_cons.1 hy with rfl | hy
            · exact .inl (List.mem_cons_self ..)
            · exact (i3 ya hy).imp_left (List.mem_cons_of_mem _)

/-- The search is through with a point: a stored region contains it, or the program has been solved
there, and the region found, if any, is stored. -/
def Through (L : Lib) (q : MpQP) (sol : List CritReg) (xa : Vec ℝ × List ℕ) : Prop :=
  (∃ cr ∈ sol, cr.contains xa.1 = .ok true) ∨
  q.explicit_solve_given_point L xa.1 (some xa.2) = .ok none ∨
  ∃ cr ∈ sol, ∃ cr0, q.explicit_solve_given_point L xa.1 (some xa.2) = .ok (some cr0) ∧ Like cr cr0

/-- The region `i` has been computed at a point that no earlier region contains, and the points of
`todo` and those that are through include all those beyond its facets. -/
def Explored (L : Lib) (q : MpQP) (step : ℝ) (sol : List CritReg)
    (P : Vec ℝ × List ℕ → Prop) : Prop :=
  ∀ (i : ℕ) (cr : CritReg), sol[i]? = some cr → ∃ (x : Vec ℝ) (guess : List ℕ) (cr0 : CritReg)
    (l : List (Vec ℝ × List ℕ)), q.explicit_solve_given_point L x (some guess) = .ok (some cr0) ∧
    neighbours L step cr0 = .ok (l, cr) ∧
    (∀ j < i, ∀ c : CritReg, sol[j]? = some c → c.contains x = .ok false) ∧ ∀ xa ∈ l, P xa

theorem explore_cases {L : Lib} {step : ℝ} (fuel : ℕ) (buffer : List (Vec ℝ × List ℕ))
    (found sol : List CritReg)
    (h0 : Explored L q step found fun xa => xa ∈ buffer ∨ Through L q found xa)
    (h : explore L q step fuel buffer found = .ok (some sol)) :
    (∀ cr ∈ found, cr ∈ sol) ∧ (∀ xa ∈ buffer, Through L q sol xa) ∧
      Explored L q step sol (Through L q sol) := by
  have mono : ∀ {s t : List CritReg} {xa}, (∀ cr ∈ s, cr ∈ t) → Through L q s xa → Through L q t xa := by
    rintro s t xa hst (⟨cr, h1, h2⟩ | h | ⟨cr, h1, h2⟩)
    · exact .inl ⟨cr, hst cr h1, h2⟩
    · exact .inr (.inl h)
    · exact .inr (.inr ⟨cr, hst cr h1, h2⟩)
  induction fuel generalizing buffer found with
  | zero => cases h
  | succ fuel ih =>
    unfold explore at h
    cases hu : uncovered found buffer with
    | error e => rw [hu] at h; cases h
    | ok r =>
      rw [hu, Py.ok_bind] at h
      obtain ⟨u1, u2, u3⟩ := uncovered_cases hu
      cases r with
      | nil =>
        cases h
        have hb : ∀ xa ∈ buffer, Through L q sol xa := fun xa hxa =>
          .inl ((u3 xa hxa).resolve_left (by simp))
        refine ⟨fun _ h => h, hb, fun i cr hi => ?_⟩
        obtain ⟨x, g, cr0, l, k1, k2, k3, k4⟩ := h0 i cr hi
        exact ⟨x, g, cr0, l, k1, k2, k3, fun xa hxa => (k4 xa hxa).elim (hb xa) id⟩
      | cons ya rest =>
        simp only at h
        cases hp : q.explicit_solve_given_point L ya.1 (some ya.2) with
        | error e => rw [hp] at h; cases h
        | ok o =>
          rw [hp, Py.ok_bind] at h
          cases o with
          | none =>
            obtain ⟨i1, i2, i3⟩ := ih rest found (fun i cr hi => by
              obtain ⟨x, g, cr0, l, k1, k2, k3, k4⟩ := h0 i cr hi
              refine ⟨x, g, cr0, l, k1, k2, k3, fun xa hxa => ?_⟩
              rcases k4 xa hxa with k | k
              · rcases u3 xa k with k | k
                · rcases List.mem_cons.1 k with rfl | k
                  · exact .inr (.inr (.inl hp))
                  · exact .inl k
                · exact .inr (.inl k)
              · exact .inr k) h
            refine ⟨i1, fun xa hxa => ?_, i3⟩
            rcases u3 xa hxa with k | ⟨cr, k1, k2⟩
            · rcases List.mem_cons.1 k with rfl | k
              · exact .inr (.inl hp)
              · exact i2 xa k
            · exact .inl ⟨cr, i1 cr k1, k2⟩
          | some cr0 =>
            simp only at h
            cases hn : neighbours L step cr0 with
            | error e => rw [hn] at h; cases h
            | ok w =>
              obtain ⟨new, cr'⟩ := w
              rw [hn, Py.ok_bind] at h
              simp only at h
              have hnew : Through L q (found ++ [cr']) ya :=
                .inr (.inr ⟨cr', by simp, cr0, hp, neighbours_like hn⟩)
              have hsub : ∀ cr ∈ found, cr ∈ found ++ [cr'] := fun cr h => by simp [h]
              obtain ⟨i1, i2, i3⟩ := ih (rest ++ new) (found ++ [cr']) (fun i cr hi => by
                by_cases hlt : i < found.length
                · rw [List.getElem?_append_left hlt] at hi
                  obtain ⟨x, g, cr1, l, k1, k2, k3, k4⟩ := h0 i cr hi
                  refine ⟨x, g, cr1, l, k1, k2, fun j hj c hc => ?_, fun xa hxa => ?_⟩
                  · rw [List.getElem?_append_left (by omega)] at hc
                    exact k3 j hj c hc
                  · rcases k4 xa hxa with k | k
                    · rcases u3 xa k with k | ⟨c, c1, c2⟩
                      · rcases List.mem_cons.1 k with rfl | k
                        · exact .inr hnew
                        · exact .inl (List.mem_append_left _ k)
                      · exact .inr (.inl ⟨c, hsub c c1, c2⟩)
                    · exact .inr (mono hsub k)
                · rw [List.getElem?_append_right (by omega)] at hi
                  have hi' : i = found.length ∧ cr' = cr := by
                    rw [List.getElem?_singleton] at hi
                    split at hi
                    · next h => exact ⟨by omega, by cases hi; rfl⟩
                    · cases hi
                  obtain ⟨rfl, rfl⟩ := hi'
                  refine ⟨ya.1, ya.2, cr0, new, hp, hn, fun j hj c hc => ?_, fun xa hxa => ?_⟩
                  · rw [List.getElem?_append_left hj] at hc
                    exact u2 ya (List.mem_cons_self ..) c (List.mem_of_getElem? hc)
                  · exact .inl (List.mem_append_right _ hxa)) h
              refine ⟨fun cr hcr => i1 cr (hsub cr hcr), fun xa hxa => ?_, i3⟩
              rcases u3 xa hxa with k | ⟨c, c1, c2⟩
              · rcases List.mem_cons.1 k with rfl | k
                · exact mono i1 hnew
                · exact i2 xa (List.mem_append_left _ k)
              · exact .inl ⟨c, i1 c (hsub c c1), c2⟩

/-- C43: whatever the points in the buffer, each region in the result is computed at a point that no
earlier region contains, it is the region of independent constraints of the program, and gives the
optimizer, multipliers and the optimal value at all points of its polyhedron.  When the search ends,
each point of the buffer and each point beyond a facet of a region is either in a region, or the program
has been solved there. -/
theorem C43 (L : Lib) (nu nx : ℕ) (q : MpQP) (hm : q.Made) (hs : q.data.Shape nu nx) (step : ℝ)
    (fuel : ℕ) (buffer : List (Vec ℝ × List ℕ)) (sol : ExplicitSolution)
    (h : explore L q step fuel buffer [] = .ok (some sol)) :
    (∀ xa ∈ buffer, Through L q sol xa) ∧
    ∀ (i : ℕ) (cr : CritReg), sol[i]? = some cr →
      (∃ (x : Vec ℝ) (guess : List ℕ) (cr0 : CritReg) (l : List (Vec ℝ × List ℕ)),
        q.explicit_solve_given_point L x (some guess) = .ok (some cr0) ∧
        neighbours L step cr0 = .ok (l, cr) ∧ Like cr cr0 ∧
        (∀ j < i, ∀ c : CritReg, sol[j]? = some c → c.contains x = .ok false) ∧
        ∀ xa ∈ l, Through L q sol xa) ∧
      (∀ k ∈ cr.active_set, k < q.Au.nr) ∧ q.data.Licq nu cr.active_set ∧
      ∀ y : Vec ℝ, y.n = nx → ∃ u p v, cr.u y = .ok u ∧ cr.p y = .ok p ∧ cr.V y = .ok v ∧
        v = q.data.cost nu nx u.e y.e ∧
        (cr.polyhedron.Mem y.e → q.data.KKT nu nx u.e p.e y.e ∧ q.data.Opt nu nx u.e y.e) ∧
        (cr.polyhedron.Mem y.e ↔ ∃ u' p' : ℕ → ℝ, q.data.KKT nu nx u' p' y.e ∧
          (∀ i < q.Au.nr, i ∉ cr.active_set → p' i = 0) ∧
          ∀ i ∈ cr.active_set, q.data.lhs nu nx i u' y.e = q.b.e i) := by
  obtain ⟨-, h1, h2⟩ := explore_cases fuel buffer [] sol (fun i cr hi => by simp at hi) h
  refine ⟨h1, fun i cr hi => ?_⟩
  obtain ⟨x, g, cr0, l, k1, k2, k3, k4⟩ := h2 i cr hi
  obtain ⟨a, hrun⟩ := point_from k1
  have hlike := neighbours_like k2
  have hcases := explicit_cases hm hs hrun
  have hact : cr.active_set = a := by
    obtain ⟨P, -, rfl⟩ := hlike
    rw [hcases.2.2]; rfl
  refine ⟨⟨x, g, cr0, l, k1, k2, hlike, k3, k4⟩, ?_, ?_, fun y hy => ?_⟩
  · rw [hact]; exact hcases.1
  · rw [hact]; exact hcases.2.1
  · obtain ⟨u, p, hu, hp, -, -, hopt, hiff⟩ := C40 nu nx q hm hs a cr0 hrun y hy
    obtain ⟨u1, v, hu1, hv, hval, -⟩ := C41 nu nx q hm hs a cr0 hrun y hy
    rw [hu] at hu1
    cases hu1
    refine ⟨u, p, v, (hlike.u y).trans hu, (hlike.p y).trans hp, (hlike.V y).trans hv, hval,
      fun hmem => ?_, ?_⟩
    · have := hopt ((hlike.mem _).1 hmem)
      exact ⟨this.1, this.2.1⟩
    · rw [hact, hlike.mem]; exact hiff

/-! ### termination -/

/-- the points that the search may put into the buffer, with the guesses of their active sets -/
inductive Reached (L : Lib) (q : MpQP) (step : ℝ) : Vec ℝ × List ℕ → Prop
  | start : Reached L q step (Vec.zeros q.fx.n, [])
  | next {xa ya : Vec ℝ × List ℕ} {cr cr' : CritReg} {l : List (Vec ℝ × List ℕ)} :
      Reached L q step xa → q.explicit_solve_given_point L xa.1 (some xa.2) = .ok (some cr) →
      neighbours L step cr = .ok (l, cr') → ya ∈ l → Reached L q step ya

theorem finite_lists (m : ℕ) : {l : List ℕ | l.Nodup ∧ ∀ i ∈ l, i < m}.Finite := by
  refine Set.Finite.subset ((List.finite_length_le (Fin m) m).image (List.map Fin.val)) ?_
  rintro l ⟨h1, h2⟩
  refine ⟨l.pmap (fun i hi => ⟨i, hi⟩) h2, ?_, ?_⟩
  · have : l.toFinset ⊆ range m := fun i hi => mem_range.2 (h2 i (List.mem_toFinset.1 hi))
    have := Finset.card_le_card this
    rw [List.toFinset_card_of_nodup h1, card_range] at this
    simpa using this
  · rw [List.map_pmap]
    simp

/-- the search ends, from any state in which each active set has been found at most once -/
theorem explore_ends {L : Lib} {step : ℝ} (hm : q.Made) (hs : q.data.Shape nu nx)
    (hcont : ∀ xa, Reached L q step xa → ∀ cr : CritReg,
      q.explicit_solve_given_point L xa.1 (some xa.2) = .ok (some cr) → cr.contains xa.1 = .ok true)
    (k : ℕ) (buffer : List (Vec ℝ × List ℕ)) (hb : ∀ xa ∈ buffer, Reached L q step xa)
    (found : List CritReg) (hf : ∀ cr ∈ found, ∃ cr0 a, q.explicit_solve_given_active_set a = .ok (some cr0) ∧
      Like cr cr0) (hn : (found.map CritReg.active_set).Nodup)
    (hk : (finite_lists q.Au.nr).toFinset.card ≤ k + found.length) :
    ∃ N, ∀ fuel ≥ N, ∃ r, explore L q step fuel buffer found = r ∧ r ≠ .ok none ∧
      ∀ sol, r = .ok (some sol) → (sol.map CritReg.active_set).Nodup := by
  have hfrom : ∀ {cr cr0 : CritReg} {a}, q.explicit_solve_given_active_set a = .ok (some cr0) →
      Like cr cr0 → cr.active_set = a ∧ a.Nodup ∧ (∀ i ∈ a, i < q.Au.nr) ∧ cr0 = q.fCr a := by
    intro cr cr0 a h hl
    obtain ⟨c1, c2, rfl⟩ := explicit_cases hm hs h
    obtain ⟨P, -, rfl⟩ := hl
    exact ⟨rfl, licq_nodup c2, c1, rfl⟩
  have hstep : ∀ (fuel : ℕ) (b r : List (Vec ℝ × List ℕ)), uncovered found b = .ok r →
      explore L q step (fuel + 1) b found = match r with
        | [] => .ok (some found)
        | ya :: rest => q.explicit_solve_given_point L ya.1 (some ya.2) >>= fun cr => match cr with
          | none => explore L q step fuel rest found
          | some cr => neighbours L step cr >>= fun w =>
            explore L q step fuel (rest ++ w.1) (found ++ [w.2]) := by
    intro fuel b r h
    conv_lhs => unfold explore
    rw [h, Py.ok_bind]
    cases r <;> rfl
  induction k using Nat.strong_induction_on generalizing buffer found with
  | _ k ih =>
  induction hlen : buffer.length using Nat.strong_induction_on generalizing buffer with
  | _ n ihn =>
  cases hu : uncovered found buffer with
  | error e =>
    refine ⟨1, fun fuel hfuel => ⟨.error e, ?_, by simp, by simp⟩⟩
    obtain ⟨f, rfl⟩ : ∃ f, fuel = f + 1 := ⟨fuel - 1, by omega⟩
    unfold explore
    rw [hu]; rfl
  | ok r =>
    obtain ⟨u1, u2, u3⟩ := uncovered_cases hu
    cases r with
    | nil =>
      refine ⟨1, fun fuel hfuel => ⟨.ok (some found), ?_, by simp, fun sol hsol => by cases hsol; exact hn⟩⟩
      obtain ⟨f, rfl⟩ : ∃ f, fuel = f + 1 := ⟨fuel - 1, by omega⟩
      rw [hstep f buffer _ hu]
    | cons ya rest =>
      have hya : Reached L q step ya := hb ya (u1.subset (List.mem_cons_self ..))
      have hrest : ∀ xa ∈ rest, Reached L q step xa := fun xa hxa =>
        hb xa (u1.subset (List.mem_cons_of_mem _ hxa))
      cases hp : q.explicit_solve_given_point L ya.1 (some ya.2) with
      | error e =>
        refine ⟨1, fun fuel hfuel => ⟨.error e, ?_, by simp, by simp⟩⟩
        obtain ⟨f, rfl⟩ : ∃ f, fuel = f + 1 := ⟨fuel - 1, by omega⟩
        rw [hstep f buffer _ hu]
        simp only [hp]; rfl
      | ok o =>
        cases o with
        | none =>
          have hl := u1.length_le
          rw [List.length_cons] at hl
          obtain ⟨N, hN⟩ := ihn rest.length (by omega) rest hrest rfl
          refine ⟨N + 1, fun fuel hfuel => ?_⟩
          obtain ⟨f, rfl⟩ : ∃ f, fuel = f + 1 := ⟨fuel - 1, by omega⟩
          obtain ⟨r, h1, h2⟩ := hN f (by omega)
          refine ⟨r, ?_, h2⟩
          rw [hstep f buffer _ hu]
          simp only [hp, Py.ok_bind]
          exact h1
        | some cr0 =>
          cases hnb : neighbours L step cr0 with
          | error e =>
            refine ⟨1, fun fuel hfuel => ⟨.error e, ?_, by simp, by simp⟩⟩
            obtain ⟨f, rfl⟩ : ∃ f, fuel = f + 1 := ⟨fuel - 1, by omega⟩
            rw [hstep f buffer _ hu]
            simp only [hp, Py.ok_bind, hnb]; rfl
          | ok w =>
            obtain ⟨new, cr'⟩ := w
            obtain ⟨a, hrun⟩ := point_from hp
            have hlike := neighbours_like hnb
            obtain ⟨a1, a2, a3, a4⟩ := hfrom hrun hlike
            -- the active set is new
            have hnew : cr'.active_set ∉ found.map CritReg.active_set := by
              intro hmem
              obtain ⟨c, hc, hca⟩ := List.mem_map.1 hmem
              obtain ⟨c0, a', c1, c2⟩ := hf c hc
              obtain ⟨b1, -, -, b4⟩ := hfrom c1 c2
              have hfalse := u2 ya (List.mem_cons_self ..) c hc
              have htrue := hcont ya hya cr0 hp
              rw [c2.contains, b4, ← b1, hca, a1, ← a4, htrue] at hfalse
              cases hfalse
            have hn' : ((found ++ [cr']).map CritReg.active_set).Nodup := by
              rw [List.map_append, List.nodup_append]
              refine ⟨hn, by simp, fun x hx y hy => ?_⟩
              rw [List.map_singleton, List.mem_singleton] at hy
              subst hy
              rintro rfl
              exact hnew hx
            have hf' : ∀ cr ∈ found ++ [cr'], ∃ cr0 a,
                q.explicit_solve_given_active_set a = .ok (some cr0) ∧ Like cr cr0 := by
              intro cr hcr
              rcases List.mem_append.1 hcr with h | h
              · exact hf cr h
              · rw [List.mem_singleton] at h
                subst h
                exact ⟨cr0, a, hrun, hlike⟩
            have hcard : (found ++ [cr']).length ≤ (finite_lists q.Au.nr).toFinset.card := by
              rw [← List.length_map (f := CritReg.active_set), ← List.toFinset_card_of_nodup hn']
              refine Finset.card_le_card fun l hl => ?_
              obtain ⟨c, hc, rfl⟩ := List.mem_map.1 (List.mem_toFinset.1 hl)
              obtain ⟨c0, a', c1, c2⟩ := hf' c hc
              obtain ⟨b1, b2, b3, -⟩ := hfrom c1 c2
              rw [Set.Finite.mem_toFinset, b1]
              exact ⟨b2, b3⟩
            rw [List.length_append, List.length_singleton] at hcard
            obtain ⟨N, hN⟩ := ih (k - 1) (by omega) (rest ++ new) (fun xa hxa => by
              rcases List.mem_append.1 hxa with h | h
              · exact hrest xa h
              · exact .next hya hp hnb h) (found ++ [cr']) hf' hn' (by
                rw [List.length_append, List.length_singleton]; omega) (by
                intro fuel b r h
                conv_lhs => unfold explore
                rw [h, Py.ok_bind]
                cases r <;> rfl)
            refine ⟨N + 1, fun fuel hfuel => ?_⟩
            obtain ⟨f, rfl⟩ : ∃ f, fuel = f + 1 := ⟨fuel - 1, by omega⟩
            obtain ⟨r, h1, h2⟩ := hN f (by omega)
            refine ⟨r, ?_, h2⟩
            rw [hstep f buffer _ hu]
            simp only [hp, Py.ok_bind, hnb]
            exact h1


theorem beyondFacet_size {L : Lib} {step : ℝ} {cr : CritReg} {i : ℕ} {ya : Vec ℝ × List ℕ}
    (h : beyondFacet L step cr i = .ok ya) : ya.1.n = cr.polyhedron.A.nc := by
  unfold beyondFacet at h
  cases hc : cr.facet_center L i with
  | error e => rw [hc] at h; cases h
  | ok o =>
    rw [hc, Py.ok_bind] at h
    cases o with
    | none => cases h
    | some c =>
      simp only at h
      by_cases hn : c.n = ((cr.polyhedron.A.row i).smul step).n
      · have : np.addV c ((cr.polyhedron.A.row i).smul step) = .ok _ := if_pos hn
        rw [this] at h
        cases h
        exact hn
      · have : np.addV c ((cr.polyhedron.A.row i).smul step) = np.broadcastV (· + ·) c ((cr.polyhedron.A.row i).smul step) := if_neg hn
        rw [this] at h
        have h1 : cr.polyhedron.A.nc ≠ 1 := by
          intro h1
          unfold CritReg.facet_center at hc
          rw [if_pos h1] at hc
          cases hc
          exact hn h1.symm
        unfold np.broadcastV at h
        rw [show (if ((cr.polyhedron.A.row i).smul step).n = 1 then _ else _) = _ from if_neg h1] at h
        split_ifs at h
        · cases h
          rfl
        · cases h

/-- the points beyond the facets -/
theorem neighbours_mem {L : Lib} {step : ℝ} {cr0 cr : CritReg} {l : List (Vec ℝ × List ℕ)}
    (h : neighbours L step cr0 = .ok (l, cr)) : ∃ mf, (Poly.minimal_facets L 1e-7 cr0.polyhedron).1
      = .ok (some mf) ∧ mf.mapM (beyondFacet L step cr) = .ok l := by
  unfold neighbours at h
  cases hmf : (Poly.minimal_facets L 1e-7 cr0.polyhedron).1 with
  | error e => rw [hmf] at h; cases h
  | ok o =>
    rw [hmf, Py.ok_bind] at h
    cases o with
    | none => cases h
    | some mf =>
      simp only at h
      cases hl : mf.mapM (beyondFacet L step
          { cr0 with polyhedron := (Poly.minimal_facets L 1e-7 cr0.polyhedron).2 }) with
      | error e => rw [hl] at h; cases h
      | ok l' =>
        rw [hl] at h
        cases h
        exact ⟨mf, rfl, hl⟩

theorem reached_size {L : Lib} {step : ℝ} (hm : q.Made) (hs : q.data.Shape nu nx)
    {xa : Vec ℝ × List ℕ} (h : Reached L q step xa) : xa.1.n = nx := by
  cases h with
  | start => exact hs.fx
  | next h1 h2 h3 h4 =>
    obtain ⟨mf, k1, k2⟩ := neighbours_mem h3
    obtain ⟨l1, l2⟩ := mapM_ok_iff k2
    obtain ⟨i, hi, rfl⟩ := List.getElem_of_mem h4
    rw [beyondFacet_size (l2 i (l1 ▸ hi) hi)]
    obtain ⟨a, hrun⟩ := point_from h2
    obtain ⟨-, -, rfl⟩ := explicit_cases hm hs hrun
    obtain ⟨P, ⟨e1, -⟩, rfl⟩ := neighbours_like h3
    show P.A.nc = nx
    rw [e1]
    exact (fCr_inv hs).1

/-- C84, what holds: if at the points reached by the search the multipliers returned by the solver are
either zero or greater than `1e-7`, then the search ends (`none` is what `explore` gives when it is
stopped), possibly with an exception, and no two regions in the result have the same active set.
Missing: without this hypothesis the search may never end, see `C84_false`. -/
theorem C84_partial (L : Lib) (hL : LibSpec L) (nu nx : ℕ) (q : MpQP) (hm : q.Made)
    (hs : q.data.Shape nu nx) (hnu : 0 < nu) (hpos : 0 < q.Au.nr) (step : ℝ)
    (hgap : ∀ xa, Reached L q step xa → xa.1.n = nx → ∀ s lam, q.solve L xa.1 = .ok s →
      s.multiplier_inequality = some lam → ∀ i < q.Au.nr, 1e-7 < lam.e i ∨ lam.e i = 0) :
    ∃ N, ∀ fuel ≥ N, ∃ r, q.explicit_solve L fuel step = r ∧ r ≠ .ok none ∧
      ∀ sol, r = .ok (some sol) → (sol.map CritReg.active_set).Nodup := by
  refine explore_ends hm hs (fun xa hxa cr hcr => ?_) _ [(Vec.zeros q.fx.n, [])]
    (fun xa hxa => by rw [List.mem_singleton] at hxa; subst hxa; exact .start) [] (by simp) (by simp)
    (by simp only [List.length_nil, Nat.add_zero]; exact le_rfl)
  have hx : xa.1.n = nx := reached_size hm hs hxa
  obtain ⟨g1, g2, g3, -⟩ := C44_partial L hL nu nx q hm hs hnu hpos xa.1 hx
  by_cases hg : ∃ c : CritReg, q.explicit_solve_given_active_set xa.2 = .ok (some c) ∧
      c.contains xa.1 = .ok true
  · obtain ⟨c, c1, c2⟩ := hg
    rw [g1 _ c c1 c2] at hcr
    cases hcr
    exact c2
  · by_cases hin : ∀ i ∈ xa.2, i < q.Au.nr
    · rw [g2 xa.2 hin fun c c1 c2 => hg ⟨c, c1, c2⟩] at hcr
      rcases g3 with ⟨s, h1, h2, h3⟩ | ⟨u, lam, s, act, h1, h2, hlam, h3, h4, h5, -, h6, h7, h8⟩
      · rw [h3] at hcr; cases hcr
      · by_cases hl : q.data.Licq nu act
        · obtain ⟨c, c1, c2, c3, c4⟩ := h8 hl
          rw [c1] at hcr
          cases hcr
          exact (c4 (hgap xa hxa hx s lam h1 hlam)).2.1
        · rw [h7 hl] at hcr; cases hcr
    · exfalso
      have : np.rows q.Au xa.2 = .error .indexError := if_neg hin
      unfold explicit_solve_given_point explicit_solve_given_active_set at hcr
      simp only [this] at hcr
      cases hcr

end Verif.Props
