import Verif.Props.MpQPExplicit
import Verif.Proofs.KKTNec
import Verif.Proofs.LibExists
import Verif.Proofs.MpQPFree
import Verif.Math.LipschitzCover

/- The optimizer of a multiparametric quadratic program is a Lipschitz function of the parameter (C144). -/
namespace Verif.Props
open Finset Verif.MpQP

variable {nu nx : ℕ}

/-- the sum of the gradients of the constraints of a set, in the order of the sorted list -/
theorem sum_sorted (s : Finset ℕ) (w : ℕ → ℝ) (f : ℕ → ℝ) :
    ∑ k ∈ range (s.sort (· ≤ ·)).length, w k * f ((s.sort (· ≤ ·)).getD k 0) = ∑ i ∈ s, w ((s.sort (· ≤ ·)).idxOf i) * f i := by
  set a := s.sort (· ≤ ·) with ha
  have hnd : a.Nodup := s.sort_nodup _
  have hmem : ∀ i, i ∈ a ↔ i ∈ s := fun i => s.mem_sort _
  refine Finset.sum_bij' (fun k _ => a.getD k 0) (fun i _ => a.idxOf i) ?_ ?_ ?_ ?_ ?_
  · intro k hk
    rw [List.getD_eq_getElem _ _ (mem_range.1 hk), ← hmem]
    exact List.getElem_mem _
  · intro i hi
    rw [mem_range, List.idxOf_lt_length_iff]
    exact (hmem i).2 hi
  · intro k hk
    simp only [List.getD_eq_getElem _ _ (mem_range.1 hk)]
    exact hnd.idxOf_getElem _ _
  · intro i hi
    have h := List.idxOf_lt_length_iff.2 ((hmem i).2 hi)
    simp only [List.getD_eq_getElem _ _ h]
    exact List.getElem_idxOf h
  · intro k hk
    simp only [List.getD_eq_getElem _ _ (mem_range.1 hk)]
    rw [hnd.idxOf_getElem]

/-- multipliers can be chosen such that the constraints with a multiplier that is not zero are independent -/
theorem kkt_licq {P : Spec.ParamQP} {u p x : ℕ → ℝ} (h : P.KKT nu nx u p x) :
    ∃ s : Finset ℕ, s ⊆ range P.Au.nr ∧ P.Licq nu (s.sort (· ≤ ·)) ∧ (∀ i ∈ s, P.lhs nu nx i u x = P.b.e i) ∧
      ∃ p', P.KKT nu nx u p' x ∧ ∀ i < P.Au.nr, i ∉ s → p' i = 0 := by
  classical
  obtain ⟨c, hc⟩ : ∃ c, ((range P.Au.nr).filter fun i => p i ≠ 0).card = c := ⟨_, rfl⟩
  induction c using Nat.strong_induction_on generalizing p with
  | _ c ih =>
    set s := (range P.Au.nr).filter fun i => p i ≠ 0 with hsdef
    have hms : ∀ i, i ∈ s ↔ i < P.Au.nr ∧ p i ≠ 0 := fun i => by rw [hsdef, mem_filter, mem_range]
    have htight : ∀ i ∈ s, P.lhs nu nx i u x = P.b.e i := fun i hi => by
      obtain ⟨h1, h2⟩ := (hms i).1 hi
      have := (mul_eq_zero.1 (h.compl i h1)).resolve_left h2
      linarith
    by_cases hl : P.Licq nu (s.sort (· ≤ ·))
    · refine ⟨s, filter_subset _ _, hl, htight, p, h, fun i hi his => ?_⟩
      by_contra h0
      exact his ((hms i).2 ⟨hi, h0⟩)
    · -- a dependence among the gradients
      obtain ⟨W, hW, i0, hi0, hpos⟩ : ∃ W : ℕ → ℝ, (∀ j < nu, ∑ i ∈ s, W i * P.Au.e i j = 0) ∧ ∃ i0 ∈ s, 0 < W i0 := by
        unfold Spec.ParamQP.Licq at hl
        push Not at hl
        obtain ⟨w, h1, k, hk, hwk⟩ := hl
        set a := s.sort (· ≤ ·) with ha
        have hk' : a.getD k 0 ∈ s := by
          rw [List.getD_eq_getElem _ _ hk, ← s.mem_sort (· ≤ ·)]
          exact List.getElem_mem _
        have hidx : a.idxOf (a.getD k 0) = k := by
          rw [List.getD_eq_getElem _ _ hk]
          exact (s.sort_nodup _).idxOf_getElem _ _
        have hsum : ∀ j < nu, ∑ i ∈ s, w (a.idxOf i) * P.Au.e i j = 0 := fun j hj => by
          rw [← sum_sorted s w fun i => P.Au.e i j]
          exact h1 j hj
        rcases lt_or_gt_of_ne hwk with hneg | hpos
        · refine ⟨fun i => - w (a.idxOf i), fun j hj => ?_, a.getD k 0, hk', by simp only [hidx]; linarith⟩
          simp only [neg_mul, Finset.sum_neg_distrib, hsum j hj, neg_zero]
        · exact ⟨fun i => w (a.idxOf i), hsum, a.getD k 0, hk', by simp only [hidx]; exact hpos⟩
      -- the largest step along it
      obtain ⟨m, hm, hmin⟩ := (s.filter fun i => 0 < W i).exists_min_image (fun i => p i / W i) ⟨i0, by rw [mem_filter]; exact ⟨hi0, hpos⟩⟩
      obtain ⟨hms', hWm⟩ := mem_filter.1 hm
      obtain ⟨hmr, hpm⟩ := (hms m).1 hms'
      have hpm0 : 0 ≤ p m := h.nonneg m hmr
      set θ := p m / W m with hθ
      have hθ0 : 0 ≤ θ := div_nonneg hpm0 hWm.le
      set p1 : ℕ → ℝ := fun i => if i ∈ s then p i - θ * W i else 0 with hp1
      have hoff : ∀ i < P.Au.nr, i ∉ s → p i = 0 := fun i hi his => by
        by_contra h0
        exact his ((hms i).2 ⟨hi, h0⟩)
      have hk1 : P.KKT nu nx u p1 x := by
        refine ⟨h.feas, fun j hj => ?_, fun i hi => ?_, fun i hi => ?_⟩
        · rw [← h.stat j hj]
          unfold Spec.ParamQP.lagrangian
          congr 1
          have hsub : s ⊆ range P.Au.nr := filter_subset _ _
          rw [← Finset.sum_subset hsub fun i hi his => by rw [hp1]; simp [his],
            ← Finset.sum_subset hsub fun i hi his => by rw [hoff i (mem_range.1 hi) his, zero_mul]]
          have : ∀ i ∈ s, p1 i * P.Au.e i j = p i * P.Au.e i j - θ * (W i * P.Au.e i j) := fun i hi => by
            simp only [hp1, hi, if_true]; ring
          rw [Finset.sum_congr rfl this, Finset.sum_sub_distrib, ← Finset.mul_sum, hW j hj, mul_zero, sub_zero]
        · by_cases his : i ∈ s
          · simp only [hp1, his, if_true]
            have hpi := h.nonneg i hi
            by_cases hWi : 0 < W i
            · have := hmin i (mem_filter.2 ⟨his, hWi⟩)
              rw [le_div_iff₀ hWi] at this
              linarith
            · nlinarith [not_lt.1 hWi]
          · simp [hp1, his]
        · by_cases his : i ∈ s
          · rw [htight i his, sub_self, mul_zero]
          · simp [hp1, his]
      refine ih _ ?_ hk1 rfl
      rw [← hc]
      refine Finset.card_lt_card ((Finset.ssubset_iff_of_subset fun i hi => ?_).2 ⟨m, hms', ?_⟩)
      · obtain ⟨h1, h2⟩ := mem_filter.1 hi
        by_contra his
        exact h2 (by simp [hp1, his])
      · simp only [mem_filter, mem_range, not_and, not_not]
        intro _
        simp only [hp1, hms', if_true, hθ]
        field_simp
        ring

/-- the optimizer satisfies the KKT conditions -/
theorem kkt_of_opt {P : Spec.ParamQP} (hs : P.Shape nu nx) {u x : ℕ → ℝ} (h : P.Opt nu nx u x) : ∃ p, P.KKT nu nx u p x := by
  have h1 := (opt_iff hs ⟨nu, u⟩ x).1 h
  obtain ⟨lam, mu, hk⟩ := qp_kkt_necessary hs.Huu.nr hs.Huu.nc hs.Huu.symm rfl (shapeAt hs x) h1
  exact ⟨lam.e, (kkt_iff hs ⟨nu, u⟩ lam hk.size x).2 ⟨h1.1, hk.size, by simp, hk.stat, hk.nonneg, hk.compl⟩⟩

theorem opt_unique {P : Spec.ParamQP} (hs : P.Shape nu nx) {u v x : ℕ → ℝ} (h : P.Opt nu nx u x) (h' : P.Opt nu nx v x) : ∀ j < nu, v j = u j := by
  obtain ⟨p, hp⟩ := kkt_of_opt hs h
  exact (opt_of_kkt hs hp).2 v h'.1 (h'.2 u h.1)

/-- there is an optimizer if the program is feasible -/
theorem opt_exists {P : Spec.ParamQP} (hs : P.Shape nu nx) {x : ℕ → ℝ} (h : ∃ u, P.Feas nu nx u x) : ∃ u, P.Opt nu nx u x := by
  obtain ⟨L, hL⟩ := exists_lib
  obtain ⟨u, hu⟩ := h
  obtain ⟨v, hv⟩ := qp_exists_opt hL hs.Huu (f := linAt P nu nx x) rfl (shapeAt hs x) ⟨⟨nu, u⟩, (feas_iff hs ⟨nu, u⟩ x).1 hu⟩
  exact ⟨v.e, (opt_iff hs v x).2 hv⟩

/-- the optimizer at a parameter is given by one of the affine functions of the independent sets of constraints, and the parameter is in its region -/
theorem opt_region {q : MpQP} (hm : q.Made) (hs : q.data.Shape nu nx) {u x : ℕ → ℝ} (h : q.data.Opt nu nx u x) :
    ∃ s : Finset ℕ, s ⊆ range q.Au.nr ∧ q.data.Licq nu (s.sort (· ≤ ·)) ∧ (q.fCr (s.sort (· ≤ ·))).polyhedron.Mem x := by
  obtain ⟨p, hp⟩ := kkt_of_opt hs h
  obtain ⟨s, h1, h2, h3, p', h4, h5⟩ := kkt_licq hp
  refine ⟨s, h1, h2, (fCr_mem hm hs h2 x).2 ?_⟩
  have hmem : ∀ i, i ∈ s.sort (· ≤ ·) ↔ i ∈ s := fun i => s.mem_sort _
  obtain ⟨k1, k2⟩ := (fCr_kkt hm hs (fun i hi => mem_range.1 (h1 ((hmem i).1 hi))) h2 x).2.2 u p' h4.stat (fun i hi => h3 i ((hmem i).1 hi))
    fun i hi his => h5 i hi fun h => his ((hmem i).2 h)
  refine ⟨fun i hi => ?_, fun i hi _ => ?_⟩
  · have hi' := mem_range.1 (h1 ((hmem i).1 hi))
    rw [← k2 i hi']
    exact h4.nonneg i hi'
  · have e : q.data.lhs nu nx i (q.fu' (s.sort (· ≤ ·)) nx x) x = q.data.lhs nu nx i u x := by
      unfold Spec.ParamQP.lhs
      congr 1
      exact Finset.sum_congr rfl fun j hj => by rw [k1 j (mem_range.1 hj)]
    rw [e]
    exact h4.feas i hi

/-- the optimizer is a Lipschitz function of the parameter, on all the parameters where the program is feasible -/
theorem optimizer_lipschitz {P : Spec.ParamQP} (hs : P.Shape nu nx) : ∃ K, 0 ≤ K ∧ ∀ x y u v : ℕ → ℝ, P.Opt nu nx u x → P.Opt nu nx v y →
    ∀ j < nu, |u j - v j| ≤ K * ∑ l ∈ range nx, |x l - y l| := by
  classical
  obtain ⟨q, -, hm, rfl⟩ := init_made hs
  set K := ∑ s ∈ (range q.Au.nr).powerset, ∑ j ∈ range nu, ∑ l ∈ range nx, |(q.fUx (s.sort (· ≤ ·))).e j l| with hK
  have hKs : ∀ s ⊆ range q.Au.nr, ∀ j < nu, ∀ l < nx, |(q.fUx (s.sort (· ≤ ·))).e j l| ≤ K := by
    intro s h1 j hj l hl
    refine le_trans ?_ (Finset.single_le_sum (f := fun s : Finset ℕ => ∑ j ∈ range nu, ∑ l ∈ range nx, |(q.fUx (s.sort (· ≤ ·))).e j l|)
      (fun s _ => Finset.sum_nonneg fun j _ => Finset.sum_nonneg fun l _ => abs_nonneg _) (Finset.mem_powerset.2 h1))
    refine le_trans ?_ (Finset.single_le_sum (f := fun j => ∑ l ∈ range nx, |(q.fUx (s.sort (· ≤ ·))).e j l|)
      (fun j _ => Finset.sum_nonneg fun l _ => abs_nonneg _) (mem_range.2 hj))
    exact Finset.single_le_sum (f := fun l => |(q.fUx (s.sort (· ≤ ·))).e j l|) (fun l _ => abs_nonneg _) (mem_range.2 hl)
  have hK0 : 0 ≤ K := Finset.sum_nonneg fun s _ => Finset.sum_nonneg fun j _ => Finset.sum_nonneg fun l _ => abs_nonneg _
  refine ⟨K, hK0, fun x y u v hu hv j hj => ?_⟩
  -- the segment between the parameters
  set z : ℝ → ℕ → ℝ := fun t l => x l + t * (y l - x l) with hz
  have hfeas : ∀ t ∈ Set.Icc (0 : ℝ) 1, ∃ w, q.data.Feas nu nx w (z t) := by
    intro t ht
    refine ⟨fun j => u j + t * (v j - u j), fun i hi => ?_⟩
    have e : q.data.lhs nu nx i (fun j => u j + t * (v j - u j)) (z t) = (1 - t) * q.data.lhs nu nx i u x + t * q.data.lhs nu nx i v y := by
      unfold Spec.ParamQP.lhs
      have e1 : ∀ (n : ℕ) (a b c : ℕ → ℝ), ∑ k ∈ range n, c k * (a k + t * (b k - a k)) = (1 - t) * ∑ k ∈ range n, c k * a k + t * ∑ k ∈ range n, c k * b k := by
        intro n a b c
        rw [Finset.mul_sum, Finset.mul_sum, ← Finset.sum_add_distrib]
        exact Finset.sum_congr rfl fun k _ => by ring
      rw [e1, show ∑ k ∈ range nx, q.data.Ax.e i k * z t k = _ from e1 nx x y fun k => q.data.Ax.e i k]
      ring
    rw [e]
    have h1 := mul_le_mul_of_nonneg_left (hu.1 i hi) (sub_nonneg.2 ht.2)
    have h2 := mul_le_mul_of_nonneg_left (hv.1 i hi) ht.1
    linarith
  -- the optimizer on it
  set g : ℝ → ℝ := fun t => if h : ∃ w, q.data.Opt nu nx w (z t) then h.choose j else 0 with hg
  have hgval : ∀ t w, q.data.Opt nu nx w (z t) → g t = w j := by
    intro t w hw
    have hex : ∃ w, q.data.Opt nu nx w (z t) := ⟨w, hw⟩
    simp only [hg, dif_pos hex]
    exact opt_unique hs hw hex.choose_spec j hj
  set I := ((range q.Au.nr).powerset).filter fun s => q.data.Licq nu (s.sort (· ≤ ·)) with hI
  have hmI : ∀ s, s ∈ I ↔ s ⊆ range q.Au.nr ∧ q.data.Licq nu (s.sort (· ≤ ·)) := fun s => by rw [hI, mem_filter, mem_powerset]
  set S : Finset ℕ → Set ℝ := fun s => {t | (q.fCr (s.sort (· ≤ ·))).polyhedron.Mem (z t)} with hS
  have hclosed : ∀ s ∈ I, IsClosed (S s) := by
    intro s _
    have hc : ∀ (A : Mat ℝ) (i : ℕ), Continuous fun t => ∑ l ∈ range A.nc, A.e i l * z t l := by
      intro A i
      simp only [hz]
      fun_prop
    have e : S s = (⋂ i, ⋂ (_ : i < (q.fCr (s.sort (· ≤ ·))).polyhedron.A.nr), {t | ∑ l ∈ range (q.fCr (s.sort (· ≤ ·))).polyhedron.A.nc,
        (q.fCr (s.sort (· ≤ ·))).polyhedron.A.e i l * z t l ≤ (q.fCr (s.sort (· ≤ ·))).polyhedron.b.e i}) ∩
        ⋂ i, ⋂ (_ : i < (q.fCr (s.sort (· ≤ ·))).polyhedron.C.nr), {t | ∑ l ∈ range (q.fCr (s.sort (· ≤ ·))).polyhedron.C.nc,
        (q.fCr (s.sort (· ≤ ·))).polyhedron.C.e i l * z t l = (q.fCr (s.sort (· ≤ ·))).polyhedron.d.e i} := by
      ext t
      simp only [hS, Set.mem_ofPred_eq, Set.mem_inter_iff, Set.mem_iInter]
      rfl
    rw [e]
    exact (isClosed_iInter fun i => isClosed_iInter fun _ => isClosed_le (hc _ _) continuous_const).inter
      (isClosed_iInter fun i => isClosed_iInter fun _ => isClosed_eq (hc _ _) continuous_const)
  have hlip : ∀ s ∈ I, ∀ t ∈ S s, ∀ t' ∈ S s, t ≤ t' → |g t' - g t| ≤ (K * ∑ l ∈ range nx, |x l - y l|) * (t' - t) := by
    intro s hsI t ht t' ht' htt
    obtain ⟨h1, h2⟩ := (hmI s).1 hsI
    have ha : ∀ i ∈ s.sort (· ≤ ·), i < q.Au.nr := fun i hi => mem_range.1 (h1 ((s.mem_sort _).1 hi))
    have hval : ∀ t ∈ S s, g t = q.fu' (s.sort (· ≤ ·)) nx (z t) j := fun t ht =>
      hgval t _ (opt_of_kkt hs (fCr_kkt_of_mem hm hs ha h2 ht)).1
    rw [hval t ht, hval t' ht']
    unfold fu'
    have e : ∑ k ∈ range nx, (q.fUx (s.sort (· ≤ ·))).e j k * z t' k + (q.fU0 (s.sort (· ≤ ·))).e j
        - (∑ k ∈ range nx, (q.fUx (s.sort (· ≤ ·))).e j k * z t k + (q.fU0 (s.sort (· ≤ ·))).e j)
        = (t' - t) * ∑ k ∈ range nx, (q.fUx (s.sort (· ≤ ·))).e j k * (y k - x k) := by
      rw [add_sub_add_right_eq_sub, ← Finset.sum_sub_distrib, Finset.mul_sum]
      exact Finset.sum_congr rfl fun k _ => by simp only [hz]; ring
    rw [e, abs_mul, abs_of_nonneg (sub_nonneg.2 htt), mul_comm]
    refine mul_le_mul_of_nonneg_right ?_ (sub_nonneg.2 htt)
    refine (Finset.abs_sum_le_sum_abs _ _).trans ?_
    rw [Finset.mul_sum]
    refine Finset.sum_le_sum fun k hk => ?_
    rw [abs_mul, abs_sub_comm (x k)]
    exact mul_le_mul_of_nonneg_right (hKs s h1 j hj k (mem_range.1 hk)) (abs_nonneg _)
  have hcov : ∀ t ∈ Set.Icc (0 : ℝ) 1, ∃ s ∈ I, t ∈ S s := by
    intro t ht
    obtain ⟨w, hw⟩ := opt_exists hs (hfeas t ht)
    obtain ⟨s, h1, h2, h3⟩ := opt_region hm hs hw
    exact ⟨s, (hmI s).2 ⟨h1, h2⟩, h3⟩
  have := LipschitzCover.cover I S hclosed g _ hlip 0 1 zero_le_one hcov
  have z0 : z 0 = x := by funext l; simp [hz]
  have z1 : z 1 = y := by funext l; simp [hz]
  rw [hgval 0 u (by rw [z0]; exact hu), hgval 1 v (by rw [z1]; exact hv), abs_sub_comm] at this
  linarith

/-- C144 for `solve`: with one constant for the program, the optimizers at two parameters differ by at most the constant times the distance of the
parameters, and so do those of two different solvers within the contract -/
theorem C144_solve (nu nx : ℕ) (q : MpQP) (hs : q.data.Shape nu nx) : ∃ K, 0 ≤ K ∧ ∀ (L L' : Lib), LibSpec L → LibSpec L' → ∀ (x y : Vec ℝ) (s s' : Sol) (u v : Vec ℝ),
    x.n = nx → y.n = nx → q.solve L x = .ok s → q.solve L' y = .ok s' → s.argmin = some u → s'.argmin = some v →
    u.n = nu ∧ v.n = nu ∧ ∀ j < nu, |u.e j - v.e j| ≤ K * ∑ l ∈ range nx, |x.e l - y.e l| := by
  obtain ⟨K, hK, h⟩ := optimizer_lipschitz hs
  refine ⟨K, hK, fun L L' hL hL' x y s s' u v hx hy h1 h2 hu hv => ?_⟩
  have key : ∀ (L : Lib) (x : Vec ℝ) (s : Sol) (u : Vec ℝ), LibSpec L → x.n = nx → q.solve L x = .ok s → s.argmin = some u →
      u.n = nu ∧ q.data.Opt nu nx u.e x.e := by
    intro L x s u hL hx h1 hu
    obtain ⟨u0, g1, -⟩ := free_opt hs x.e
    obtain ⟨k1, k2⟩ := C45_partial L hL nu nx q hs x hx u0 g1
    rcases Nat.eq_zero_or_pos q.Au.nr with h0 | h0
    · rw [k2 h0] at h1
      cases h1
    · obtain ⟨s'', e1, e2, -, e3⟩ := k1 h0
      rw [h1] at e1
      cases e1
      cases hm : s.min with
      | none =>
        rw [e3 hm] at hu
        cases hu
      | some m =>
        obtain ⟨u', lam, f1, f2, f3, -⟩ := e2 m hm
        rw [hu] at f1
        cases f1
        exact ⟨f2, f3⟩
  obtain ⟨a1, a2⟩ := key L x s u hL hx h1 hu
  obtain ⟨b1, b2⟩ := key L' y s' v hL' hy h2 hv
  exact ⟨a1, b1, h x.e y.e u.e v.e a2 b2⟩

end Verif.Props
