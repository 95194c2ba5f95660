import Verif.Props.MpQPExplicit
import Verif.Props.PolyhedronCache

/- What `contains` says about a critical region, and the regions up to their cached attributes. -/
namespace Verif
open Finset Verif.Props Classical
namespace MpQP

variable {nu nx : ℕ} {q : MpQP} {a : List ℕ}

/-- a stationary point of the Lagrangian minimizes it -/
theorem lagrangian_le {P : Spec.ParamQP} (hs : P.Shape nu nx) {u p x : ℕ → ℝ}
    (h : ∀ j < nu, P.lagrangian nu nx u x p j = 0) (u' : ℕ → ℝ) :
    P.cost nu nx u x ≤ P.cost nu nx u' x
      + ∑ i ∈ range P.Au.nr, p i * (P.lhs nu nx i u' x - P.lhs nu nx i u x) := by
  let P' : Spec.ParamQP := { P with
    fu := ⟨nu, fun j => P.fu.e j + ∑ i ∈ range P.Au.nr, p i * P.Au.e i j⟩
    Au := Mat.zeros 0 nu, Ax := Mat.zeros 0 nx, b := Vec.zeros 0 }
  have hs' : P'.Shape nu nx :=
    ⟨hs.Huu, hs.Hux_nr, hs.Hux_nc, hs.Hxx_nr, hs.Hxx_nc, rfl, hs.fx, rfl, rfl, rfl, rfl⟩
  have hk : P'.KKT nu nx u (fun _ => 0) x := by
    refine ⟨fun i hi => absurd hi (Nat.not_lt_zero i), fun j hj => ?_, fun i hi => le_rfl,
      fun i hi => by simp⟩
    rw [← h j hj]
    simp [Spec.ParamQP.lagrangian, P']
    ring
  have ho := (opt_of_kkt hs' hk).1.2 u' (fun i hi => absurd hi (Nat.not_lt_zero i))
  have e : ∀ v, P'.cost nu nx v x = P.cost nu nx v x
      + ∑ i ∈ range P.Au.nr, p i * ∑ j ∈ range nu, P.Au.e i j * v j := by
    intro v
    have : ∑ j ∈ range nu, (P.fu.e j + ∑ i ∈ range P.Au.nr, p i * P.Au.e i j) * v j
        = ∑ j ∈ range nu, P.fu.e j * v j
          + ∑ i ∈ range P.Au.nr, p i * ∑ j ∈ range nu, P.Au.e i j * v j := by
      simp only [add_mul, Finset.sum_add_distrib, Finset.sum_mul, Finset.mul_sum]
      congr 1
      rw [Finset.sum_comm]
      exact Finset.sum_congr rfl fun i _ => Finset.sum_congr rfl fun j _ => by ring
    simp only [Spec.ParamQP.cost, P', this]
    ring
  rw [e, e] at ho
  have e3 : ∑ i ∈ range P.Au.nr, p i * (P.lhs nu nx i u' x - P.lhs nu nx i u x)
      = ∑ i ∈ range P.Au.nr, p i * ∑ j ∈ range nu, P.Au.e i j * u' j
        - ∑ i ∈ range P.Au.nr, p i * ∑ j ∈ range nu, P.Au.e i j * u j := by
    rw [← Finset.sum_sub_distrib]
    refine Finset.sum_congr rfl fun i _ => ?_
    unfold Spec.ParamQP.lhs
    ring
  rw [e3]
  linarith

/-- the tolerance for an inequality with gradient `v`, after the normalization -/
noncomputable def slackTol (v : Vec ℝ) : ℝ := if 1e-7 < vnorm v then 1e-7 * vnorm v else 1e-7

theorem slackTol_pos (v : Vec ℝ) : 0 < slackTol v := by
  unfold slackTol
  split
  · next h => exact mul_pos (by norm_num) (lt_trans (by norm_num) h)
  · norm_num

theorem normalize_le {n : ℕ} {p : Poly} (hp : p.Inv n) (x : ℕ → ℝ) {i : ℕ} (hi : i < p.A.nr) :
    ∑ j ∈ range n, p.normalize.A.e i j * x j - p.normalize.b.e i ≤ 1e-7 ↔
      ∑ j ∈ range n, p.A.e i j * x j - p.b.e i ≤ slackTol (p.A.row i) := by
  obtain ⟨h1, h2, h3, h4, h5⟩ := Poly.normalizeRow_foldl 1e-7 p.A p.b p.A.nr
  have e1 : ∀ j, p.normalize.A.e i j = _ := h4 i
  have e2 : p.normalize.b.e i = _ := h5 i
  simp only [e1, e2]
  unfold slackTol
  by_cases hr : (1e-7 : ℝ) < vnorm (p.A.row i)
  · have hr0 : 0 < vnorm (p.A.row i) := lt_trans (by norm_num) hr
    rw [if_pos hr]
    simp only [if_pos (show i < p.A.nr ∧ vnorm (p.A.row i) > 1e-7 from ⟨hi, hr⟩)]
    have : ∑ j ∈ range n, p.A.e i j / vnorm (p.A.row i) * x j - p.b.e i / vnorm (p.A.row i)
        = (∑ j ∈ range n, p.A.e i j * x j - p.b.e i) / vnorm (p.A.row i) := by
      rw [sub_div, Finset.sum_div]
      congr 1
      exact Finset.sum_congr rfl fun j _ => by ring
    rw [this, div_le_iff₀ hr0]
  · rw [if_neg hr]
    have hn : ¬ (i < p.A.nr ∧ vnorm (p.A.row i) > 1e-7) := fun h => hr h.2
    simp only [if_neg hn]

theorem fAcr_nr (hs : q.data.Shape nu nx) : (q.fAcr a).nr = a.length + (q.inactive a).length := rfl

/-- gradient of the multiplier `k` of the list of the active constraints -/
theorem contains_fCr (hm : q.Made) (hs : q.data.Shape nu nx) (hl : q.data.Licq nu a)
    (hpos : 0 < q.Au.nr) {x : Vec ℝ} (hx : x.n = nx) :
    ∃ r, (q.fCr a).contains x = .ok r ∧ (r = true ↔
      (∀ k < a.length, -q.fp' a nx x.e (a.getD k 0) ≤ slackTol ((q.fAcr a).row k)) ∧
      ∀ k < (q.inactive a).length, q.data.lhs nu nx ((q.inactive a).getD k 0) (q.fu' a nx x.e) x.e
        - q.b.e ((q.inactive a).getD k 0) ≤ slackTol ((q.fAcr a).row (a.length + k))) := by
  have hI := fCr_inv (a := a) hs
  have hnr : (q.fCr a).polyhedron.A.nr = a.length + (q.inactive a).length :=
    (Props.C07 nx _ (fPoly_inv (a := a) hs) 1e-7 (by norm_num)).2.1
  have hC : (q.fCr a).polyhedron.C.nr = 0 :=
    (Props.C07 nx _ (fPoly_inv (a := a) hs) 1e-7 (by norm_num)).2.2.1
  have hA : 0 < (q.fCr a).polyhedron.A.nr := by
    rw [hnr]
    by_cases h0 : a = []
    · subst h0
      have : q.inactive [] = List.range q.Ax.nr := by simp [inactive]
      rw [this]
      have : q.Ax.nr = q.Au.nr := hs.rows
      simp [this, hpos]
    · have := List.length_pos_of_ne_nil h0
      omega
  obtain ⟨r, h1, h2⟩ := contains_iff hI hA x hx 1e-7
  refine ⟨r, h1, h2.trans ?_⟩
  rw [hC, hnr]
  simp only [lt_self_iff_false, false_imp_iff, and_true]
  have key : ∀ i < a.length + (q.inactive a).length,
      (∑ j ∈ range nx, (q.fCr a).polyhedron.A.e i j * x.e j - (q.fCr a).polyhedron.b.e i ≤ 1e-7 ↔
        ∑ j ∈ range nx, (q.fAcr a).e i j * x.e j - (q.fBcr a).e i ≤ slackTol ((q.fAcr a).row i)) :=
    fun i hi => normalize_le (fPoly_inv (a := a) hs) x.e hi
  rw [forall_congr' fun i => forall_congr' (key i), forall_lt_add]
  refine and_congr (forall_congr' fun k => forall_congr' fun hk => ?_)
    (forall_congr' fun k => forall_congr' fun hk => ?_)
  · rw [fAcr_mul hs hl x.e hk]
  · rw [fAcr_con hm hs]

theorem contains_of_mem (hm : q.Made) (hs : q.data.Shape nu nx) (ha : ∀ i ∈ a, i < q.Au.nr)
    (hl : q.data.Licq nu a) (hpos : 0 < q.Au.nr) {x : Vec ℝ} (hx : x.n = nx)
    (h : (q.fCr a).polyhedron.Mem x.e) : (q.fCr a).contains x = .ok true := by
  obtain ⟨r, h1, h2⟩ := contains_fCr hm hs hl hpos hx
  rw [h1]
  congr 1
  rw [h2]
  obtain ⟨m1, m2⟩ := (fCr_mem hm hs hl x.e).1 h
  refine ⟨fun k hk => ?_, fun k hk => ?_⟩
  · have := m1 (a.getD k 0) (by rw [List.getD_eq_getElem _ _ hk]; exact List.getElem_mem hk)
    have := slackTol_pos ((q.fAcr a).row k)
    linarith
  · obtain ⟨i1, i2⟩ := inactive_getD hk
    have hr : q.Ax.nr = q.Au.nr := hs.rows
    have := m2 _ (hr ▸ i1) i2
    have := slackTol_pos ((q.fAcr a).row (a.length + k))
    linarith

/-- the region, but for the cached attributes of its polyhedron -/
def Like (cr cr0 : CritReg) : Prop :=
  ∃ P, SameData cr0.polyhedron P ∧ cr = { cr0 with polyhedron := P }

theorem Like.refl (cr : CritReg) : Like cr cr := ⟨cr.polyhedron, ⟨rfl, rfl, rfl, rfl⟩, rfl⟩

theorem Like.contains {cr cr0 : CritReg} (h : Like cr cr0) (x : Vec ℝ) :
    cr.contains x = cr0.contains x := by
  obtain ⟨P, ⟨h1, h2, h3, h4⟩, rfl⟩ := h
  unfold CritReg.contains Poly.contains
  rw [h1, h2, h3, h4]

theorem Like.mem {cr cr0 : CritReg} (h : Like cr cr0) (x : ℕ → ℝ) :
    cr.polyhedron.Mem x ↔ cr0.polyhedron.Mem x := by
  obtain ⟨P, ⟨h1, h2, h3, h4⟩, rfl⟩ := h
  unfold Poly.Mem
  rw [h1, h2, h3, h4]

theorem Like.u {cr cr0 : CritReg} (h : Like cr cr0) (x : Vec ℝ) : cr.u x = cr0.u x := by
  obtain ⟨P, -, rfl⟩ := h; rfl
theorem Like.p {cr cr0 : CritReg} (h : Like cr cr0) (x : Vec ℝ) : cr.p x = cr0.p x := by
  obtain ⟨P, -, rfl⟩ := h; rfl
theorem Like.V {cr cr0 : CritReg} (h : Like cr cr0) (x : Vec ℝ) : cr.V x = cr0.V x := by
  obtain ⟨P, -, rfl⟩ := h; rfl

end MpQP
end Verif
