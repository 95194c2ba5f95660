import Verif.Model.Example
import Verif.Props.MiSolve
import Verif.Props.HybridBigM

/- The graphs of the modes and their big-M constants in the drake example. -/
namespace Verif
namespace Example
open Finset Spec Dyn Control

/-- `(x, u, x⁺)` as a vector -/
def triple (nx nu : ℕ) (x u y : ℕ → ℝ) : ℕ → ℝ := fun j => if j < nx + nu then pair nx x u j else y (j - (nx + nu))

/-- `(x, u)` satisfies the inequalities of the domain `i` and `x⁺` is the next state of the mode `i` -/
def InGraph (S : PWA) (i : ℕ) (w : ℕ → ℝ) : Prop :=
  IneqHold (domAt S i).A (domAt S i).b w ∧
  ∀ k < S.nx, w (S.nx + S.nu + k) = Spec.affine (sysAt S i).A (sysAt S i).B (sysAt S i).c w (fun j => w (S.nx + j)) k

/-- a polyhedron whose inequalities describe the graph of the mode `i` -/
structure IsGraph (S : PWA) (i : ℕ) (G : Poly) : Prop where
  nr : G.A.nr = (domAt S i).A.nr + (S.nx + S.nx)
  nc : G.A.nc = S.nx + S.nu + S.nx
  b : G.b.n = G.A.nr
  C : G.C.nr = 0
  dom : ∀ k < (domAt S i).A.nr, ∀ w, rowVal G.A k w - G.b.e k = rowVal (domAt S i).A k w - (domAt S i).b.e k
  up : ∀ k < S.nx, ∀ w, rowVal G.A ((domAt S i).A.nr + k) w - G.b.e ((domAt S i).A.nr + k)
    = Spec.affine (sysAt S i).A (sysAt S i).B (sysAt S i).c w (fun j => w (S.nx + j)) k - w (S.nx + S.nu + k)
  down : ∀ k < S.nx, ∀ w, rowVal G.A ((domAt S i).A.nr + (S.nx + k)) w - G.b.e ((domAt S i).A.nr + (S.nx + k))
    = w (S.nx + S.nu + k) - Spec.affine (sysAt S i).A (sysAt S i).B (sysAt S i).c w (fun j => w (S.nx + j)) k

theorem IsGraph.mem {S : PWA} {i : ℕ} {G : Poly} (h : IsGraph S i G) (w : ℕ → ℝ) : IneqHold G.A G.b w ↔ InGraph S i w := by
  unfold IneqHold InGraph
  rw [h.nr, forall_lt_add, forall_lt_add]
  constructor
  · rintro ⟨h1, h2, h3⟩
    refine ⟨fun k hk => ?_, fun k hk => ?_⟩
    · have := h1 k hk
      have := h.dom k hk w
      linarith
    · have m2 := h2 k hk
      have m3 := h3 k hk
      have e2 := h.up k hk w
      have e3 := h.down k hk w
      linarith
  · rintro ⟨h1, h2⟩
    refine ⟨fun k hk => ?_, fun k hk => ?_, fun k hk => ?_⟩
    · have := h1 k hk
      have := h.dom k hk w
      linarith
    · have := h2 k hk
      have := h.up k hk w
      linarith
    · have := h2 k hk
      have := h.down k hk w
      linarith

theorem init_none {A : Mat ℝ} {b : Vec ℝ} (h : b.n = A.nr) : ∃ p, Poly.init A (.d1 b) = .ok p ∧ p.A = A ∧ p.b = b ∧ p.C.nr = 0 := by
  exact ⟨Poly.fresh A b (Mat.zeros 0 A.nc) (Vec.zeros 0), Poly.init_eq_ok.2 ⟨b, rfl, h, Or.inl ⟨rfl, rfl, rfl⟩⟩, rfl, rfl, rfl⟩

theorem graph_ok {S : PWA} (h : PwaShape S) {i : ℕ} (hi : i < S.nm) : ∃ G, graph S i = .ok G ∧ IsGraph S i G := by
  have hiD : i < S.domains.length := by rw [h.lenD]; exact hi
  have hiS : i < S.affine_systems.length := by rw [h.lenS]; exact hi
  obtain ⟨⟨a1, a2, a3, a4, a5⟩, -, -⟩ := h.sys _ (getD_mem sys0 hiS)
  obtain ⟨d1, d2⟩ := h.dom _ (getD_mem poly0 hiD)
  have e1 : np.listGet S.domains i = .ok (domAt S i) := Dyn.listGet_ok _ hiD
  have e2 : np.listGet S.affine_systems i = .ok (sysAt S i) := Dyn.listGet_ok _ hiS
  set Di := domAt S i with hDi
  set Si := sysAt S i with hSi
  set r1 := Di.A.happ (Mat.zeros Di.A.nr S.nx) with hr1
  set r2 := Si.A.happ (Si.B.happ (Mat.eye S.nx : Mat ℝ).neg) with hr2
  set r3 := Si.A.neg.happ (Si.B.neg.happ (Mat.eye S.nx : Mat ℝ)) with hr3
  have k1 : np.hstack [Di.A, Mat.zeros Di.A.nr S.nx] = .ok r1 := by
    show (Except.ok _ >>= _) = _
    rw [Py.ok_bind]
    exact if_pos rfl
  have k2 : np.hstack [Si.A, Si.B, (Mat.eye S.nx : Mat ℝ).neg] = .ok r2 := by
    show ((Except.ok _ >>= fun C => np.hstack2 Si.B C) >>= fun C => np.hstack2 Si.A C) = _
    rw [Py.ok_bind, show np.hstack2 Si.B (Mat.eye S.nx : Mat ℝ).neg = .ok (Si.B.happ (Mat.eye S.nx : Mat ℝ).neg) from if_pos a3, Py.ok_bind]
    exact if_pos (a1.trans a3.symm)
  have k3 : np.hstack [Si.A.neg, Si.B.neg, (Mat.eye S.nx : Mat ℝ)] = .ok r3 := by
    show ((Except.ok _ >>= fun C => np.hstack2 Si.B.neg C) >>= fun C => np.hstack2 Si.A.neg C) = _
    rw [Py.ok_bind, show np.hstack2 Si.B.neg (Mat.eye S.nx : Mat ℝ) = .ok (Si.B.neg.happ (Mat.eye S.nx : Mat ℝ)) from if_pos a3, Py.ok_bind]
    exact if_pos (a1.trans a3.symm)
  have c1 : r1.nc = S.nx + S.nu + S.nx := by show Di.A.nc + S.nx = _; rw [d1]
  have c2 : r2.nc = S.nx + S.nu + S.nx := by show Si.A.nc + (Si.B.nc + S.nx) = _; rw [a2, a4]; ring
  have c3 : r3.nc = S.nx + S.nu + S.nx := by show Si.A.nc + (Si.B.nc + S.nx) = _; rw [a2, a4]; ring
  have n2 : r2.nr = S.nx := a1
  have n3 : r3.nr = S.nx := a1
  have k4 : np.vstack [r1, r2, r3] = .ok (r1.vapp (r2.vapp r3)) := by
    show ((Except.ok _ >>= fun C => np.vstack2 r2 C) >>= fun C => np.vstack2 r1 C) = _
    rw [Py.ok_bind, show np.vstack2 r2 r3 = .ok (r2.vapp r3) from if_pos (c2.trans c3.symm), Py.ok_bind]
    exact if_pos (c1.trans c2.symm)
  have k5 : np.concatenate [Di.b, Si.c.neg, Si.c] = .ok (Di.b.append (Si.c.neg.append Si.c)) := rfl
  have hb : (Di.b.append (Si.c.neg.append Si.c)).n = (r1.vapp (r2.vapp r3)).nr := by
    show Di.b.n + (Si.c.n + Si.c.n) = Di.A.nr + (r2.nr + r3.nr)
    rw [d2, a5, n2, n3]
  obtain ⟨G, g1, gA, gb, gC⟩ := init_none hb
  have hv1 : ∀ k < Di.A.nr, ∀ w, rowVal (r1.vapp (r2.vapp r3)) k w = rowVal Di.A k w := fun k hk w => by
    rw [rowVal_vapp_lt (show k < r1.nr from hk), hr1, Props.rowVal_happ, rowVal_zeros, add_zero]
  have hv2 : ∀ k < S.nx, ∀ w, rowVal (r1.vapp (r2.vapp r3)) (Di.A.nr + k) w
      = rowVal Si.A k w + rowVal Si.B k (fun j => w (S.nx + j)) - w (S.nx + S.nu + k) := fun k hk w => by
    have e := rowVal_vapp_add (A := r1) (B := r2.vapp r3) (c1.trans c2.symm) k w
    rw [show r1.nr = Di.A.nr from rfl] at e
    rw [e, rowVal_vapp_lt (by rw [n2]; exact hk), hr2, Props.rowVal_happ, Props.rowVal_happ, rowVal_neg', rowVal_eye hk, a2, a4, ← Nat.add_assoc]
    ring
  have hv3 : ∀ k < S.nx, ∀ w, rowVal (r1.vapp (r2.vapp r3)) (Di.A.nr + (S.nx + k)) w
      = -(rowVal Si.A k w + rowVal Si.B k (fun j => w (S.nx + j)) - w (S.nx + S.nu + k)) := fun k hk w => by
    have e := rowVal_vapp_add (A := r1) (B := r2.vapp r3) (c1.trans c2.symm) (S.nx + k) w
    rw [show r1.nr = Di.A.nr from rfl] at e
    have e' := rowVal_vapp_add (A := r2) (B := r3) (c2.trans c3.symm) k w
    rw [n2] at e'
    rw [e, e', hr3, Props.rowVal_happ, Props.rowVal_happ, rowVal_neg', rowVal_neg', rowVal_eye hk, show Si.A.neg.nc = S.nx from a2,
      show Si.B.neg.nc = S.nu from a4, ← Nat.add_assoc]
    ring
  have hb1 : ∀ k < Di.A.nr, (Di.b.append (Si.c.neg.append Si.c)).e k = Di.b.e k := fun k hk => Vec.append_e_lt _ _ (by rw [d2]; exact hk)
  have hb2 : ∀ k < S.nx, (Di.b.append (Si.c.neg.append Si.c)).e (Di.A.nr + k) = - Si.c.e k := fun k hk => by
    rw [← d2, Vec.append_e_add, Vec.append_e_lt Si.c.neg Si.c (show k < Si.c.n by rw [a5]; exact hk)]
    rfl
  have hb3 : ∀ k < S.nx, (Di.b.append (Si.c.neg.append Si.c)).e (Di.A.nr + (S.nx + k)) = Si.c.e k := fun k hk => by
    rw [← d2, Vec.append_e_add, ← a5]
    exact Vec.append_e_add Si.c.neg Si.c k
  have hA : ∀ k w, Spec.affine Si.A Si.B Si.c w (fun j => w (S.nx + j)) k
      = rowVal Si.A k w + rowVal Si.B k (fun j => w (S.nx + j)) + Si.c.e k := fun _ _ => rfl
  refine ⟨G, ?_, ⟨?_, ?_, ?_, gC, fun k hk w => ?_, fun k hk w => ?_, fun k hk w => ?_⟩⟩
  · unfold graph
    rw [e1, Py.ok_bind, e2, Py.ok_bind, k1, Py.ok_bind, k2, Py.ok_bind, k3, Py.ok_bind, k4, Py.ok_bind, k5, Py.ok_bind]
    exact g1
  · rw [gA]
    show Di.A.nr + (r2.nr + r3.nr) = _
    rw [n2, n3]
  · rw [gA]
    exact c1
  · rw [gA, gb]
    exact hb
  · rw [gA, gb, hv1 k hk, hb1 k hk]
  · rw [gA, gb, hv2 k hk, hb2 k hk, hA]
    ring
  · rw [gA, gb, hv3 k hk, hb3 k hk, hA]
    ring

/-! ### the constants -/

/-- each domain has an inequality, the inequalities of the domains have solutions, and these are bounded -/
structure GoodIneqs (S : PWA) : Prop where
  rows : ∀ j < S.nm, 0 < (domAt S j).A.nr
  ne : ∀ j < S.nm, ∃ w, IneqHold (domAt S j).A (domAt S j).b w
  bounded : ∀ j < S.nm, ∃ R, ∀ w, IneqHold (domAt S j).A (domAt S j).b w → ∀ k < S.nx + S.nu, |w k| ≤ R

/-- the linear programs of `big_m` -/
theorem lp_least {L : Lib} (hL : LibSpec L) {n : ℕ} {A : Mat ℝ} (hrows : 0 < A.nr) {b : Vec ℝ} (hA : A.nc = n) (hb : b.n = A.nr) (hne : ∃ w, IneqHold A b w)
    (hbd : ∃ R, ∀ w, IneqHold A b w → ∀ k < n, |w k| ≤ R) {f : Vec ℝ} (hf : f.n = n) :
    ∃ s m, lpDefault L f A b = .ok s ∧ s.min = some m ∧ IsLeast {v | ∃ w, IneqHold A b w ∧ v = ∑ j ∈ range n, f.e j * w j} m := by
  have hs' : Spec.ConstrShape n A b none none := ⟨hA, hb⟩
  have feas : ∀ x : Vec ℝ, Spec.Feasible A b none none x ↔ IneqHold A b x.e := fun x => ⟨fun h => h.1, fun h => ⟨h, trivial⟩⟩
  have hopt : ∃ x, Spec.IsLpOpt f A b none none x := by
    by_contra hno
    rcases no_lpOpt hf hs' hno with h | h
    · obtain ⟨w, hw⟩ := hne
      exact h ⟨n, w⟩ ((feas _).2 hw)
    · obtain ⟨R, hR⟩ := hbd
      obtain ⟨x, hx, hlt⟩ := h (- ∑ j ∈ range n, |f.e j| * R)
      have hx' := hR x.e ((feas x).1 hx)
      have : - ∑ j ∈ range n, |f.e j| * R ≤ Spec.lpCost f x := by
        unfold Spec.lpCost
        rw [hf, ← Finset.sum_neg_distrib]
        refine Finset.sum_le_sum fun j hj => ?_
        have h1 := hx' j (mem_range.1 hj)
        have h2 : |f.e j * x.e j| ≤ |f.e j| * R := by
          rw [abs_mul]
          exact mul_le_mul_of_nonneg_left h1 (abs_nonneg _)
        exact (abs_le.1 h2).1
      linarith
  obtain ⟨s, x, lam, h1, -, h3, h4, h5, -⟩ := Props.C30 L hL n f A b none none hf hs' (.inl hrows) 1e-7 (by norm_num) hopt
  refine ⟨s, _, h1, h5, ⟨x.e, (feas x).1 h4.1, by unfold Spec.lpCost; rw [hf]⟩, ?_⟩
  rintro v ⟨w, hw, rfl⟩
  have := h4.2 ⟨n, w⟩ ((feas _).2 hw)
  unfold Spec.lpCost at this
  rw [hf] at this
  unfold Spec.lpCost
  rw [hf]
  exact this

/-- the point of the graph over a point of the domain -/
theorem graph_point {S : PWA} {j : ℕ} (h : PwaShape S) (hj : j < S.nm) (w : ℕ → ℝ) (hw : IneqHold (domAt S j).A (domAt S j).b w) :
    InGraph S j (fun k => if k < S.nx + S.nu then w k
      else Spec.affine (sysAt S j).A (sysAt S j).B (sysAt S j).c w (fun j => w (S.nx + j)) (k - (S.nx + S.nu))) := by
  obtain ⟨⟨a1, a2, a3, a4, a5⟩, -, -⟩ := h.sys _ (getD_mem sys0 (show j < S.affine_systems.length by rw [h.lenS]; exact hj))
  obtain ⟨d1, d2⟩ := h.dom _ (getD_mem poly0 (show j < S.domains.length by rw [h.lenD]; exact hj))
  refine ⟨fun k hk => ?_, fun k hk => ?_⟩
  · rw [rowVal_congr' (A := (domAt S j).A) (y := w) k fun i hi => if_pos (by rw [show (domAt S j).A.nc = S.nx + S.nu from d1] at hi; exact hi)]
    exact hw k hk
  · show (if S.nx + S.nu + k < S.nx + S.nu then _ else _) = _
    rw [if_neg (by omega), show S.nx + S.nu + k - (S.nx + S.nu) = k by omega]
    unfold Spec.affine
    rw [show (sysAt S j).A.nc = S.nx from a2, show (sysAt S j).B.nc = S.nu from a4]
    congr 2
    · exact Finset.sum_congr rfl fun i hi => congrArg _ (if_pos (by have := mem_range.1 hi; omega)).symm
    · exact Finset.sum_congr rfl fun i hi => congrArg _ (if_pos (by have := mem_range.1 hi; omega)).symm

theorem graph_bounded {S : PWA} {j : ℕ} (h : PwaShape S) (hg : GoodIneqs S) (hj : j < S.nm) :
    ∃ R, ∀ w, InGraph S j w → ∀ k < S.nx + S.nu + S.nx, |w k| ≤ R := by
  obtain ⟨⟨a1, a2, a3, a4, a5⟩, -, -⟩ := h.sys _ (getD_mem sys0 (show j < S.affine_systems.length by rw [h.lenS]; exact hj))
  obtain ⟨R, hR⟩ := hg.bounded j hj
  set T := sysAt S j with hT
  set r : ℕ → ℝ := fun k => ∑ i ∈ range S.nx, |T.A.e k i| * |R| + ∑ i ∈ range S.nu, |T.B.e k i| * |R| + |T.c.e k| with hr
  have r0 : ∀ k, 0 ≤ r k := fun k => by positivity
  refine ⟨|R| + ∑ k ∈ range S.nx, r k, fun w hw => ?_⟩
  have hw' := hR w hw.1
  refine forall_lt_add.2 ⟨fun k hk => ?_, fun k hk => ?_⟩
  · have h1 := hw' k hk
    have h2 := le_abs_self R
    have h3 : 0 ≤ ∑ k ∈ range S.nx, r k := Finset.sum_nonneg fun k _ => r0 k
    linarith
  · rw [hw.2 k hk]
    have h1 : |Spec.affine T.A T.B T.c w (fun j => w (S.nx + j)) k| ≤ r k := by
      unfold Spec.affine
      rw [show T.A.nc = S.nx from a2, show T.B.nc = S.nu from a4]
      refine (abs_add_le _ _).trans (add_le_add ((abs_add_le _ _).trans (add_le_add ?_ ?_)) (le_refl _))
      · refine (Finset.abs_sum_le_sum_abs _ _).trans (Finset.sum_le_sum fun i hi => ?_)
        rw [abs_mul]
        exact mul_le_mul_of_nonneg_left ((hw' i (by have := mem_range.1 hi; omega)).trans (le_abs_self R)) (abs_nonneg _)
      · refine (Finset.abs_sum_le_sum_abs _ _).trans (Finset.sum_le_sum fun i hi => ?_)
        rw [abs_mul]
        exact mul_le_mul_of_nonneg_left ((hw' (S.nx + i) (by have := mem_range.1 hi; omega)).trans (le_abs_self R)) (abs_nonneg _)
    have h2 : r k ≤ ∑ k ∈ range S.nx, r k := Finset.single_le_sum (fun k _ => r0 k) (mem_range.2 hk)
    have h3 := abs_nonneg R
    linarith

/-- `m[i][j][k]` -/
noncomputable def ex (m : List (List (Vec ℝ))) (i j k : ℕ) : ℝ := ((m.getD i []).getD j vec0).e k

/-- the lists of `big_m` have `n` entries and `m[i][j][k]` is the greatest violation of the row `k` of the graph `i` over the graph `j`, or zero if it is
close to zero -/
structure IsM (S : PWA) (Gs : List Poly) (m : List (List (Vec ℝ))) : Prop where
  len : m.length = S.nm
  row : ∀ i < S.nm, (m.getD i []).length = S.nm
  val : ∀ i < S.nm, ∀ j < S.nm, ∀ k < (Gs.getD i poly0).A.nr, ∃ M,
    IsGreatest {v | ∃ w, InGraph S j w ∧ v = rowVal (Gs.getD i poly0).A k w - (Gs.getD i poly0).b.e k} M ∧
    ex m i j k = if |M| < 1e-6 then 0 else M

theorem big_mijk_ok {L : Lib} (hL : LibSpec L) {S : PWA} (h : PwaShape S) (hg : GoodIneqs S) {i j : ℕ} (hj : j < S.nm) {Gi Gj : Poly}
    (hi' : IsGraph S i Gi) (hj' : IsGraph S j Gj) (k : ℕ) : ∃ M,
    IsGreatest {v | ∃ w, InGraph S j w ∧ v = rowVal Gi.A k w - Gi.b.e k} M ∧
    big_mijk L 1e-6 Gi Gj k = .ok (if |M| < 1e-6 then 0 else M) := by
  obtain ⟨w0, hw0⟩ := hg.ne j hj
  obtain ⟨R, hR⟩ := graph_bounded h hg hj
  obtain ⟨s, m, h1, h2, ⟨w, hw, hm⟩, h3⟩ := lp_least hL (by rw [hj'.nr]; have := hg.rows j hj; omega) hj'.nc hj'.b ⟨_, (hj'.mem _).2 (graph_point h hj w0 hw0)⟩
    ⟨R, fun w hw => hR w ((hj'.mem w).1 hw)⟩ (f := (Gi.A.row k).neg) hi'.nc
  have val : ∀ w : ℕ → ℝ, ∑ j ∈ range (S.nx + S.nu + S.nx), (Gi.A.row k).e j * w j = rowVal Gi.A k w := fun w => by
    unfold rowVal
    rw [hi'.nc]
    rfl
  refine ⟨-m - Gi.b.e k, ⟨⟨w, (hj'.mem w).1 hw, ?_⟩, ?_⟩, ?_⟩
  · rw [hm, Props.neg_min_value, val, neg_neg]
  · rintro v ⟨y, hy, rfl⟩
    have := h3 ⟨y, (hj'.mem y).2 hy, rfl⟩
    rw [Props.neg_min_value, val] at this
    linarith
  · unfold big_mijk
    rw [h1, Py.ok_bind, show Poly.negMin s = .ok (-m) by unfold Poly.negMin; rw [h2], Py.ok_bind]
    rfl

theorem build_m {L : Lib} (hL : LibSpec L) {S : PWA} (h : PwaShape S) (hg : GoodIneqs S) : ∃ Gs m, graph_representation S = .ok Gs ∧ big_m L Gs = .ok m ∧
    Gs.length = S.nm ∧ (∀ i < S.nm, IsGraph S i (Gs.getD i poly0)) ∧ IsM S Gs m := by
  have hgr : ∀ i ∈ List.range S.nm, ∃ G, graph S i = .ok G := fun i hi => by
    obtain ⟨G, hG, -⟩ := graph_ok h (List.mem_range.1 hi)
    exact ⟨G, hG⟩
  obtain ⟨Gs, hGs⟩ := mapM_total hgr
  obtain ⟨l1, l2⟩ := mapM_getD hGs 0 poly0
  rw [List.length_range] at l1 l2
  have hG : ∀ i < S.nm, IsGraph S i (Gs.getD i poly0) := fun i hi => by
    have := l2 i hi
    rw [List.getD_eq_getElem _ _ (by simpa using hi), List.getElem_range] at this
    obtain ⟨G, e, hG⟩ := graph_ok h hi
    rw [this] at e
    rw [Except.ok.inj e]
    exact hG
  have hmem : ∀ G ∈ Gs, ∃ i < S.nm, G = Gs.getD i poly0 := fun G hG => by
    obtain ⟨i, hi, rfl⟩ := List.getElem_of_mem hG
    exact ⟨i, by rw [← l1]; exact hi, (List.getD_eq_getElem _ _ hi).symm⟩
  have hij : ∀ i < S.nm, ∀ j < S.nm, ∃ v, big_mij L 1e-6 (Gs.getD i poly0) (Gs.getD j poly0) = .ok v ∧
      ∀ k < (Gs.getD i poly0).A.nr, ∃ M, IsGreatest {v | ∃ w, InGraph S j w ∧ v = rowVal (Gs.getD i poly0).A k w - (Gs.getD i poly0).b.e k} M ∧
        v.e k = if |M| < 1e-6 then 0 else M := by
    intro i hi j hj
    obtain ⟨l, hl⟩ := mapM_total (f := big_mijk L 1e-6 (Gs.getD i poly0) (Gs.getD j poly0)) (l := List.range (Gs.getD i poly0).A.nr) fun k _ => by
      obtain ⟨M, -, hM⟩ := big_mijk_ok hL h hg hj (hG i hi) (hG j hj) k
      exact ⟨_, hM⟩
    obtain ⟨k1, k2⟩ := mapM_getD hl 0 (0 : ℝ)
    rw [List.length_range] at k1 k2
    refine ⟨Vec.ofList l, ?_, fun k hk => ?_⟩
    · unfold big_mij
      rw [hl]
      rfl
    · obtain ⟨M, hM, e⟩ := big_mijk_ok hL h hg hj (hG i hi) (hG j hj) k
      have := k2 k hk
      rw [List.getD_eq_getElem (List.range _) 0 (by simpa using hk), List.getElem_range, e] at this
      exact ⟨M, hM, (Except.ok.inj this).symm⟩
  have hrow : ∀ Gi ∈ Gs, ∃ r, (Gs.mapM fun Pj => big_mij L 1e-6 Gi Pj) = .ok r := fun Gi hGi => by
    obtain ⟨i, hi, rfl⟩ := hmem Gi hGi
    refine mapM_total fun Gj hGj => ?_
    obtain ⟨j, hj, rfl⟩ := hmem Gj hGj
    obtain ⟨v, hv, -⟩ := hij i hi j hj
    exact ⟨v, hv⟩
  obtain ⟨m, hm⟩ := mapM_total hrow
  obtain ⟨m1, m2⟩ := mapM_getD hm poly0 []
  rw [l1] at m1 m2
  refine ⟨Gs, m, hGs, hm, l1, hG, m1, fun i hi => ?_, fun i hi j hj k hk => ?_⟩
  · rw [(mapM_getD (m2 i hi) poly0 vec0).1, l1]
  · have := (mapM_getD (m2 i hi) poly0 vec0).2 j (by rw [l1]; exact hj)
    obtain ⟨v, hv, hval⟩ := hij i hi j hj
    rw [this] at hv
    obtain ⟨M, hM, e⟩ := hval k hk
    exact ⟨M, hM, by unfold ex; rw [Except.ok.inj hv]; exact e⟩

end Example
end Verif
