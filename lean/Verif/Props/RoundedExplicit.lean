import Verif.Props.RoundedContains
import Verif.Props.MpQPTolerance

/- The explicit solution evaluated in floating point arithmetic. -/
namespace Verif.Props
open Finset Spec MpQP

/-- C167: let the program be feasible at some parameter.  There is `κ`, which depends on the program only, such that if in floating point arithmetic a critical region is found to contain `x`, with rounding
errors of its rows of at most `E`, and the rounding errors of `u(x)` are at most `F`, then the computed `u(x)` is within `κ (1e-7 + E) + F` of the optimizer at a parameter within `κ (1e-7 + E)` of `x`, and of the
optimizer at `x` if the program is feasible there. -/
theorem C167 (nu nx : ℕ) (q : MpQP) (hm : q.Made) (hs : q.data.Shape nu nx) (hpos : 0 < q.Au.nr) (hne : ∃ u x, q.data.Feas nu nx u x) :
    ∃ κ, 0 ≤ κ ∧ ∀ (a : List ℕ) (cr : CritReg), q.explicit_solve_given_active_set a = .ok (some cr) →
      ∀ (fl : ℝ → ℝ) (u η : ℝ), Rounds fl u η → ∀ (x : Vec ℝ), x.n = nx → ∀ E F : ℝ,
      (∀ i < cr.polyhedron.A.nr, rowErr u η cr.polyhedron.A cr.polyhedron.b x.e i ≤ E) → (∀ i < nu, rowErr u η cr.ux cr.u0 x.e i ≤ F) →
      ∀ ans : Prop, Fl.Contains fl cr.polyhedron x 1e-7 ans → ans → ∀ v, Fl.Law fl cr x v →
        (∃ y w : ℕ → ℝ, q.data.Opt nu nx w y ∧ (∀ i < nx, |x.e i - y i| ≤ κ * (1e-7 + E)) ∧ ∀ j < nu, |v j - w j| ≤ κ * (1e-7 + E) + F) ∧
        ∀ w, q.data.Opt nu nx w x.e → ∀ j < nu, |v j - w j| ≤ κ * (1e-7 + E) + F := by
  obtain ⟨κ, hκ, hreg⟩ := C155 nu nx q hm hs hpos hne
  refine ⟨κ, hκ, fun a cr hrun fl u η hr x hx E F hE hF ans hc ha v hv => ?_⟩
  obtain ⟨-, -, rfl⟩ := explicit_cases hm hs hrun
  have hI := fCr_inv (a := a) hs
  have hnr : (q.fCr a).polyhedron.A.nr = a.length + (q.inactive a).length := (C07 nx _ (fPoly_inv (a := a) hs) 1e-7 (by norm_num)).2.1
  have hC : (q.fCr a).polyhedron.C.nr = 0 := (C07 nx _ (fPoly_inv (a := a) hs) 1e-7 (by norm_num)).2.2.1
  have hA : 0 < (q.fCr a).polyhedron.A.nr := by
    rw [hnr]
    by_cases h0 : a = []
    · subst h0
      have e : q.inactive [] = List.range q.Ax.nr := by simp [MpQP.inactive]
      have : q.Ax.nr = q.Au.nr := hs.rows
      rw [e]
      simp [this, hpos]
    · have := List.length_pos_of_ne_nil h0
      omega
  have hE0 : 0 ≤ E := by
    refine le_trans ?_ (hE 0 hA)
    have h1 : 1 ≤ (1 + u) ^ ((q.fCr a).polyhedron.A.nc + 1) := one_le_pow₀ (by linarith [hr.u0])
    have h2 := hr.η0
    have h3 := hr.u0
    have h4 : 0 ≤ (1 + u) ^ ((q.fCr a).polyhedron.A.nc + 1) - 1 := by linarith
    unfold rowErr
    positivity
  have hin := (C163 fl u η hr nx _ hI hA x hx 1e-7 E hE (fun i hi => absurd hi (by omega)) ans hc).1 ha
  obtain ⟨w, w1, w2, w3, w4⟩ := hreg a _ hrun x (1e-7 + E) hx (by positivity) hin
  obtain ⟨y, y1, y2⟩ := hv
  have hux : (q.fCr a).ux.nc = nx := hs.Hux_nc
  have hur : (q.fCr a).ux.nr = nu := by
    show q.Huu_inv.nr = nu
    rw [hm.inv hs]; rfl
  have k1 : np.dotMV (q.fCr a).ux x = .ok ((q.fCr a).ux.mulVec x) := if_pos (hux.trans hx.symm)
  have hw : ∀ j < nu, |v j - w.e j| ≤ F := by
    intro j hj
    have e1 := affine_err hr (y1 j (by omega)) ((q.fCr a).u0.e j)
    rw [← y2 j (by omega)] at e1
    have e2 : w.e j = ∑ i ∈ range (q.fCr a).ux.nc, (q.fCr a).ux.e j i * x.e i + (q.fCr a).u0.e j := by
      have k := w1
      unfold CritReg.u at k
      rw [k1, Py.ok_bind] at k
      have hn : (q.fCr a).u0.n = nu := by
        show q.Huu_inv.nr = nu
        rw [hm.inv hs]; rfl
      have k2 : np.addV ((q.fCr a).ux.mulVec x) (q.fCr a).u0 = .ok (((q.fCr a).ux.mulVec x).add (q.fCr a).u0) := if_pos (hur.trans hn.symm)
      rw [k2] at k
      cases k
      rfl
    rw [e2]
    exact e1.trans (hF j hj)
  have htri : ∀ (j : ℕ) (z : ℝ), j < nu → |w.e j - z| ≤ κ * (1e-7 + E) → |v j - z| ≤ κ * (1e-7 + E) + F := fun j z hj h => by
    have := abs_add_le (v j - w.e j) (w.e j - z)
    rw [sub_add_sub_cancel] at this
    linarith [hw j hj]
  obtain ⟨y', z, z1, z2, z3⟩ := w3
  refine ⟨⟨y', z, z1, z2, fun j hj => htri j _ hj (z3 j hj)⟩, fun z hz j hj => htri j _ hj ?_⟩
  have := w4 x.e z hz j hj
  simpa using this

/-- the hypotheses are met by a region of the program `min 50 (u - x)^2` subject to `u ≤ 0` at `5e-8`, which it contains only within the tolerance -/
example : ∃ (q : MpQP) (cr : CritReg) (ans : Prop) (v : ℕ → ℝ), q.Made ∧ q.data.Shape 1 1 ∧ 0 < q.Au.nr ∧ (∃ u x, q.data.Feas 1 1 u x) ∧
    q.explicit_solve_given_active_set [] = .ok (some cr) ∧ Rounds (fun x => x) 0 0 ∧ (∀ i, rowErr 0 0 cr.polyhedron.A cr.polyhedron.b (fun _ => 5e-8) i ≤ 0) ∧
    Fl.Contains (fun x => x) cr.polyhedron ⟨1, fun _ => 5e-8⟩ 1e-7 ans ∧ ans ∧ Fl.Law (fun x => x) cr ⟨1, fun _ => 5e-8⟩ v := by
  obtain ⟨q, hm, hd, hs, hA, hrun⟩ := clip_made
  have hclip : IsClip q.data := hd ▸ clip_is
  have hr : Rounds (fun x => x) 0 0 := ⟨le_rfl, le_rfl, fun x => by simp⟩
  obtain ⟨ans, hans⟩ := contains_exists (fun x => x) (q.fCr []).polyhedron ⟨1, fun _ => 5e-8⟩ 1e-7
  have hE : ∀ (A : Mat ℝ) (b : Vec ℝ) (x : ℕ → ℝ) (i : ℕ), rowErr 0 0 A b x i ≤ 0 := fun A b x i => by simp [rowErr]
  choose y hy using fun i => dotVal_exists (fun x => x) ((q.fCr []).ux.e i) (fun _ => 5e-8) (q.fCr []).ux.nc
  have hnr : (q.fCr []).polyhedron.A.nr = 0 + (q.inactive []).length := (C07 1 _ (fPoly_inv (a := []) hs) 1e-7 (by norm_num)).2.1
  have hpos : 0 < (q.fCr []).polyhedron.A.nr := by
    have : q.Ax.nr = q.Au.nr := hs.rows
    rw [hnr]
    simp [MpQP.inactive]
    omega
  refine ⟨q, _, ans, _, hm, hs, by omega, ⟨_, _, (clip_opt hclip (x := 0) le_rfl).1.1⟩, hrun _ (Or.inl rfl), hr, hE _ _ _, hans,
    (C163 _ 0 0 hr 1 _ (fCr_inv hs) hpos _ rfl 1e-7 0 (fun i _ => hE _ _ _ i) (fun i _ => hE _ _ _ i) ans hans).2 ?_, y, fun i _ => hy i, fun i _ => rfl⟩
  rw [sub_zero]
  exact (clip_near hm hclip).1

end Verif.Props
