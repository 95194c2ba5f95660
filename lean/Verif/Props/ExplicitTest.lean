import Verif.Model.TestExplicit
import Verif.Props.MpcExplicit
import Verif.Props.ControllerTest
import Verif.Props.MpcExplicitFalse

/- The test of the explicit linear controller. -/
namespace Verif.Props
open Finset Spec Dyn Control TestSuite MpQP

/-- the result `r` of some assertions: they pass if `p` holds, and one of them fails otherwise -/
def Asserts (r : Py Unit) (p : Prop) : Prop := (p → r = .ok ()) ∧ (¬ p → r = .error .assertionError)

/-- a loop of assertions passes exactly if each of them does -/
theorem forRange_asserts {m : ℕ → Py Unit} {p : ℕ → Prop} : ∀ {n : ℕ}, (∀ t < n, Asserts (m t) (p t)) → Asserts (forRange m n) (∀ t < n, p t)
  | 0, _ => ⟨fun _ => rfl, fun h => absurd (fun t ht => by omega) h⟩
  | n + 1, h => by
    have ih := forRange_asserts fun t ht => h t (Nat.lt_succ_of_lt ht)
    refine ⟨fun e => ?_, fun e => ?_⟩
    · rw [forRange, ih.1 fun t ht => e t (by omega), Py.ok_bind]
      exact (h n (by omega)).1 (e n (by omega))
    · rw [forRange]
      by_cases c1 : ∀ t < n, p t
      · rw [ih.1 c1, Py.ok_bind]
        refine (h n (by omega)).2 fun c2 => e fun t ht => ?_
        by_cases e : t = n
        · rw [e]; exact c2
        · exact c1 t (by omega)
      · rw [ih.2 c1]
        rfl

theorem almost_asserts {v w : Vec ℝ} {n : ℕ} (hv : v.n = n) (hw : w.n = n) : Asserts (assertArrayAlmostEqual (some v) (some w)) (∀ i < n, |v.e i - w.e i| < 1.5e-6) := by
  refine ⟨fun c => ?_, fun c => ?_⟩
  · show assertTrue _ = _
    unfold assertTrue
    rw [if_pos (by rw [decide_eq_true_iff]; exact ⟨hv.trans hw.symm, fun i hi => c i (by omega)⟩)]
  · show assertTrue _ = _
    unfold assertTrue
    rw [if_neg]
    rw [decide_eq_true_iff]
    exact fun e => c fun i hi => e.2 i (by omega)

/-- the branch of the test for two answers -/
theorem checkBoth_asserts {L : Lib} {c : MPC} {x : Vec ℝ} {us us' : List (Vec ℝ)} {V V' : ℝ} (hN : 0 < c.N) {nu : ℕ} (h1 : c.feedforward L x = .ok (some us, some V))
    (h2 : c.feedforward_explicit x = .ok (some us', some V')) (l1 : us.length = c.N) (l2 : us'.length = c.N) (n1 : ∀ u ∈ us, u.n = nu) (n2 : ∀ u ∈ us', u.n = nu) :
    Asserts (checkBoth L c.N c x (some us) (some us') V (some V')) (|V' - V| ≤ 5e-8 ∧ ∀ t < c.N, ∀ s < nu, |inputsOf us t s - inputsOf us' t s| < 1.5e-6) := by
  obtain ⟨-, f2, -, -, f5, -⟩ := C65_linear L c hN x
  obtain ⟨u, u1, u2⟩ := f2 us _ h1
  obtain ⟨w, w1, w2⟩ := f5 us' _ h2
  have hget : ∀ {l : List (Vec ℝ)} {t : ℕ} {v : Vec ℝ}, l[t]? = some v → inputsOf l t = v.e := fun h => by
    unfold inputsOf; rw [List.getD_eq_getElem?_getD, h]; rfl
  have hloop : Asserts (forRange (fun t => do
      let a ← itemOf (some us) t
      let b ← itemOf (some us') t
      assertArrayAlmostEqual (some a) (some b)) c.N) (∀ t < c.N, ∀ s < nu, |inputsOf us t s - inputsOf us' t s| < 1.5e-6) := by
    refine forRange_asserts fun t ht => ?_
    have a1 : us[t]? = some us[t] := List.getElem?_eq_getElem (by omega)
    have a2 : us'[t]? = some us'[t] := List.getElem?_eq_getElem (by omega)
    show Asserts (np.listGet us t >>= fun a => np.listGet us' t >>= fun b => assertArrayAlmostEqual (some a) (some b)) _
    rw [listGet_some a1, Py.ok_bind, listGet_some a2, Py.ok_bind, hget a1, hget a2]
    exact almost_asserts (n1 _ (List.getElem_mem _)) (n2 _ (List.getElem_mem _))
  have hV : Asserts (assertAlmostEqualO (some V') V) (|V' - V| ≤ 5e-8) := by
    refine ⟨fun c1 => ?_, fun c1 => ?_⟩
    · show assertTrue _ = _
      unfold assertTrue
      rw [if_pos (by rw [decide_eq_true_iff]; exact c1)]
    · show assertTrue _ = _
      unfold assertTrue
      rw [if_neg (by rw [decide_eq_true_iff]; exact c1)]
  unfold checkBoth
  refine ⟨fun ⟨c1, c2⟩ => ?_, fun c3 => ?_⟩
  · rw [hV.1 c1, Py.ok_bind, hloop.1 c2, Py.ok_bind, u2, Py.ok_bind, w2, Py.ok_bind]
    refine (almost_asserts (n1 u (List.mem_of_getElem? u1)) (n2 w (List.mem_of_getElem? w1))).1 ?_
    have := c2 0 hN
    rw [hget u1, hget w1] at this
    exact this
  · by_cases c1 : |V' - V| ≤ 5e-8
    · rw [hV.1 c1, Py.ok_bind, hloop.2 fun c2 => c3 ⟨c1, c2⟩]
      rfl
    · rw [hV.2 c1]
      rfl

/-- C191: the body of the loop over the states of `test_explicit_solution`, for any controller whose explicit solution has been stored and any state `x`.
If no region is found to contain `x`, it passes if `feedforward(x)` has no answer, and raises `TypeError` otherwise.  If a region is found and `feedforward(x)` has no answer, an assertion fails.
If both have an answer, it passes exactly if the value that `feedforward_explicit` returns, which is the cost of the inputs that it returns, is within `5e-8` of the optimal one and all inputs are
within `1.5e-6` of the optimal ones; this is so if `x` satisfies the inequalities of the region. -/
theorem C191 (L : Lib) (hL : LibSpec L) (S : LinearSystem) (N : ℕ) (Q R P : Mat ℝ) (D X_N : Poly) (h : MpcArgs S N Q R P D X_N) :
    ∃ c, MPC.init S N Q R P D X_N = .ok c ∧ ∀ fuel step c', c.store_explicit_solution L fuel step = .ok (some c') →
      ∃ sol, c'.explicit_solution = some sol ∧ ∀ x : Vec ℝ, x.n = S.nx →
        let p := problem S N Q R P D X_N
        ((∀ cr ∈ sol, cr.contains x = .ok false) → (c'.feedforward L x = .ok (none, none) → checkExplicit L N c' x = .ok ()) ∧
          (c'.feedforward L x ≠ .ok (none, none) → checkExplicit L N c' x = .error .typeError)) ∧
        ∀ (i : ℕ) (cr : CritReg), sol[i]? = some cr → cr.contains x = .ok true → (∀ j < i, ∀ cr' : CritReg, sol[j]? = some cr' → cr'.contains x = .ok false) →
          (c'.feedforward L x = .ok (none, none) → checkExplicit L N c' x = .error .assertionError) ∧
          ∃ us V, c'.feedforward_explicit x = .ok (some us, some V) ∧ V = p.cost x.e (inputsOf us) ∧
            (∀ u, p.Opt x.e u → c'.feedforward L x ≠ .ok (none, none) → 
              Asserts (checkExplicit L N c' x) (|V - p.cost x.e u| ≤ 5e-8 ∧ ∀ t < N, ∀ s < S.nu, |u t s - inputsOf us t s| < 1.5e-6)) ∧
            (cr.polyhedron.Mem x.e → c'.feedforward L x ≠ .ok (none, none) → checkExplicit L N c' x = .ok ()) := by
  obtain ⟨q, r1, r2⟩ := feedforward_run hL h
  obtain ⟨-, c, h1, h2⟩ := C66_partial L hL S N Q R P D X_N h
  rw [r1] at h1
  cases h1
  refine ⟨_, r1, fun fuel step c' hst => ?_⟩
  obtain ⟨sol, rfl, h3⟩ := h2 fuel step c' hst
  refine ⟨sol, rfl, fun x hx => ?_⟩
  intro p
  set c' : MPC := { (⟨S, N, Q, R, P, D, X_N, none, q⟩ : MPC) with explicit_solution := some sol } with hc'
  obtain ⟨r3, -⟩ := r2 (some sol) x hx
  change c'.feedforward L x = .ok (none, none) ∨ ∃ us V, c'.feedforward L x = .ok (some us, some V) ∧ us.length = N ∧
        (∀ u ∈ us, u.n = S.nu) ∧ p.Opt x.e (inputsOf us) ∧ V = p.cost x.e (inputsOf us) ∧
        ∀ u, p.Opt x.e u → ∀ t < N, ∀ s < S.nu, u t s = inputsOf us t s at r3
  have hN : 0 < c'.N := h.N
  have hmain := h3 x hx
  constructor
  · intro hnone
    rcases hmain with ⟨-, he⟩ | ⟨i, cr, g1, g2, -⟩
    · rcases r3 with hf | ⟨us, V, hf, -⟩
      · refine ⟨fun _ => ?_, fun hne => absurd hf hne⟩
        unfold checkExplicit
        rw [hf, Py.ok_bind]
        show (c'.feedforward_explicit x >>= fun w => checkNeither c' x w.1 w.2) = _
        rw [he, Py.ok_bind]
        show (c'.feedback_explicit x >>= fun b => assertTrue b.isNone) = _
        rw [(C65_linear L c' hN x).2.2.2.2.2 none he]
        rfl
      · refine ⟨fun e => (by rw [hf] at e; cases e), fun _ => ?_⟩
        unfold checkExplicit
        rw [hf, Py.ok_bind]
        show (c'.feedforward_explicit x >>= fun w => checkBoth L N c' x (some us) w.1 V w.2) = _
        rw [he, Py.ok_bind]
        rfl
    · rw [hnone cr (List.mem_of_getElem? g1)] at g2
      cases g2
  · intro i cr hi hcr hfirst
    have hmain' : ∃ us V, c'.feedforward_explicit x = .ok (some us, some V) ∧ us.length = N ∧ (∀ u ∈ us, u.n = S.nu) ∧ V = p.cost x.e (inputsOf us) ∧
        (cr.polyhedron.Mem x.e → p.Opt x.e (inputsOf us)) := by
      rcases hmain with ⟨hno, -⟩ | ⟨i', cr', g1, g2, g3, us, V, g4, g5, g6, g7, g8⟩
      · rw [hno cr (List.mem_of_getElem? hi)] at hcr
        cases hcr
      · have hii : i' = i := by
          rcases lt_trichotomy i' i with hlt | heq | hgt
          · rw [hfirst i' hlt cr' g1] at g2; cases g2
          · exact heq
          · rw [g3 i hgt cr hi] at hcr; cases hcr
        subst hii
        obtain rfl : cr = cr' := Option.some.inj (hi.symm.trans g1)
        exact ⟨us, V, g4, g5, g6, g7, fun hm => (g8 hm).1⟩
    obtain ⟨us, V, g4, g5, g6, g7, g8⟩ := hmain'
    have hval : ∀ u, p.Opt x.e u → c'.feedforward L x ≠ .ok (none, none) → 
        Asserts (checkExplicit L N c' x) (|V - p.cost x.e u| ≤ 5e-8 ∧ ∀ t < N, ∀ s < S.nu, |u t s - inputsOf us t s| < 1.5e-6) := by
      intro u hu hne
      rcases r3 with hf | ⟨us', V', hf, f1, f2, f3, f4, f5⟩
      · exact absurd hf hne
      · have hV : V' = p.cost x.e u := f4.trans (le_antisymm (f3.2 u hu.1) (hu.2 _ f3.1))
        unfold checkExplicit
        rw [hf, Py.ok_bind]
        show Asserts (c'.feedforward_explicit x >>= fun w => checkBoth L N c' x (some us') w.1 V' w.2) _
        rw [g4, Py.ok_bind]
        have hb := checkBoth_asserts (nu := S.nu) hN hf g4 f1 g5 f2 g6
        rw [hV] at hb
        have e : (∀ t < N, ∀ s < S.nu, |u t s - inputsOf us t s| < 1.5e-6) ↔ ∀ t < c'.N, ∀ s < S.nu, |inputsOf us' t s - inputsOf us t s| < 1.5e-6 := by
          constructor
          · intro e t ht s hs
            have := e t ht s hs
            rwa [f5 u hu t ht s hs] at this
          · intro e t ht s hs
            rw [f5 u hu t ht s hs]
            exact e t ht s hs
        rw [e, hV]
        exact hb
    refine ⟨fun hf => ?_, us, V, g4, g7, hval, fun hm hne => ?_⟩
    · unfold checkExplicit
      rw [hf, Py.ok_bind]
      show (c'.feedforward_explicit x >>= fun w => checkNeither c' x w.1 w.2) = _
      rw [g4, Py.ok_bind]
      rfl
    · refine (hval _ (g8 hm) hne).1 ⟨by rw [← g7, sub_self, abs_zero]; norm_num, fun t _ s _ => by rw [sub_self, abs_zero]; norm_num⟩

/-- the controller of `C66_false`: the body passes at the state -1, which is inside of the first region, although there are states at which it compares different inputs -/
example (L : Lib) (hL : LibSpec L) : ∃ c c', MPC.init turner 1 (Mat.zeros 1 1) fifty1 fifty1 noPush line1 = .ok c ∧ c.store_explicit_solution L 3 = .ok (some c') ∧
    checkExplicit L 1 c' ⟨1, fun _ => -1⟩ = .ok () := by
  obtain ⟨q, h1, hm, hd⟩ := turner_clip
  obtain ⟨c1, c2, r, l1, l2⟩ := clip_search hL hm hd 0
  obtain ⟨⟨a1, a2, a3⟩, -⟩ := clip_poly hm hd
  have hI : (q.fCr []).polyhedron.Inv 1 := fCr_inv hd.shape
  have hC : (q.fCr []).polyhedron.C.nr = 0 := (Props.C07 1 _ (fPoly_inv (a := []) hd.shape) 1e-7 (by norm_num)).2.2.1
  have hst : (⟨turner, 1, Mat.zeros 1 1, fifty1, fifty1, noPush, line1, none, q⟩ : MPC).store_explicit_solution L 3
      = .ok (some ⟨turner, 1, Mat.zeros 1 1, fifty1, fifty1, noPush, line1, some [c1, c2], q⟩) := by
    unfold MPC.store_explicit_solution
    simp only
    rw [r]
    rfl
  refine ⟨_, _, h1, hst, ?_⟩
  obtain ⟨c, k1, k2⟩ := C191 L hL _ _ _ _ _ _ _ turner_args
  rw [h1] at k1
  cases k1
  obtain ⟨sol, e1, e2⟩ := k2 _ _ _ hst
  cases e1
  have hcont : c1.contains ⟨1, fun _ => -1⟩ = .ok true := by
    rw [l1.contains]
    exact (ray_contains hI a1 hC a3 a2 rfl).1 (by norm_num)
  obtain ⟨-, us, V, -, -, -, hpass⟩ := (e2 ⟨1, fun _ => -1⟩ rfl).2 0 c1 rfl hcont fun j hj => by omega
  refine hpass ?_ ?_
  · obtain ⟨P', hsd, rfl⟩ := l1
    obtain ⟨d1, d2, d3, d4⟩ := hsd
    show P'.Mem _
    refine (mem_noeq (by rw [d3]; exact hC) _).2 fun i hi => ?_
    rw [d1, a1] at hi
    obtain rfl : i = 0 := by omega
    unfold rowVal
    rw [d1, d2, hI.1, Finset.sum_range_one, a2, a3]
    norm_num
  · intro hf
    obtain ⟨q', r1, r2⟩ := feedforward_run hL turner_args
    rw [h1] at r1
    cases r1
    rcases ((r2 (some [c1, c2]) ⟨1, fun _ => -1⟩ rfl).2).1 hf with hn | ⟨u, u0, hu, -, hbig⟩
    · exact hn (fun _ _ => 0) ((turner_feas _ _).2 le_rfl)
    · have h0 := hu.2 (fun _ _ => 0) ((turner_feas _ _).2 le_rfl)
      have h2 : 0 ≤ (problem turner 1 (Mat.zeros 1 1) fifty1 fifty1 noPush line1).cost (fun _ => -1) u0 := by rw [turner_cost]; positivity
      have h3 : (problem turner 1 (Mat.zeros 1 1) fifty1 fifty1 noPush line1).cost (fun _ => -1) (fun _ _ => 0) = 100 := by rw [turner_cost]; norm_num
      rw [h3] at h0
      norm_num at hbig
      linarith

end Verif.Props
