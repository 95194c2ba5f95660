import Verif.Math.Polytope
import Verif.Model.Projection
import Mathlib.Data.List.GetD

/- The contracts `QhullSpec` and `RandSpec` can be met. -/
namespace Verif
open Finset Matrix Verif.Math

theorem sum_range_fin (n : ℕ) (f : ℕ → ℝ) : ∑ j ∈ range n, f j = ∑ j : Fin n, f j := (Fin.sum_univ_eq_sum_range f n).symm

/-- extension by zero -/
noncomputable def ext0 {n : ℕ} (f : Fin n → ℝ) : ℕ → ℝ := fun j => if h : j < n then f ⟨j, h⟩ else 0

theorem ext0_lt {n : ℕ} (f : Fin n → ℝ) {j : ℕ} (h : j < n) : ext0 f j = f ⟨j, h⟩ := dif_pos h

theorem ext0_fin {n : ℕ} (f : Fin n → ℝ) (j : Fin n) : ext0 f j = f j := dif_pos j.2

theorem inHull_iff (P : Mat ℝ) (x : ℕ → ℝ) : Spec.InHull P x ↔ (fun j : Fin P.nc => x j) ∈ hullSet (P.asM P.nr P.nc) := by
  constructor
  · rintro ⟨w, h1, h2, h3⟩
    refine ⟨fun k => w k, fun k => h1 k k.2, by rw [← h2, sum_range_fin], funext fun j => ?_⟩
    rw [h3 j j.2, sum_range_fin]
    simp only [mulVec, dotProduct, transpose_apply, Mat.asM_apply]
    exact Finset.sum_congr rfl fun k _ => mul_comm _ _
  · rintro ⟨w, h1, h2, h3⟩
    refine ⟨ext0 w, fun k hk => by rw [ext0_lt w hk]; exact h1 _, by rw [sum_range_fin]; simpa [ext0_fin] using h2, fun j hj => ?_⟩
    have := congrFun h3 ⟨j, hj⟩
    simp only [mulVec, dotProduct, transpose_apply, Mat.asM_apply] at this
    rw [this, sum_range_fin]
    exact Finset.sum_congr rfl fun k _ => by rw [ext0_fin, mul_comm]

theorem exists_equations (P : Mat ℝ) (h2 : 2 ≤ P.nc) (hP : Spec.FullDim P) : ∃ E : Mat ℝ, E.nc = P.nc + 1 ∧
    (∀ i < E.nr, ∑ j ∈ range P.nc, E.e i j ^ 2 = 1) ∧ (∀ x, Spec.InHalfspaces P.nc E x ↔ Spec.InHull P x) ∧
    ∀ i < E.nr, Spec.IsFacet P (E.e i) (E.e i P.nc) := by
  have hr : 0 < P.nr := by
    by_contra h0
    have := hP (fun _ => 1) 0 (fun k hk => absurd hk (by omega)) 0 (by omega)
    norm_num at this
  haveI : Nonempty (Fin P.nr) := ⟨⟨0, hr⟩⟩
  haveI : Nonempty (Fin P.nc) := ⟨⟨0, by omega⟩⟩
  obtain ⟨F, f1, f2, f3⟩ := exists_facets (P.asM P.nr P.nc) fun a d h => by
    funext j
    have := hP (ext0 a) d (fun k hk => by
      rw [← h ⟨k, hk⟩, sum_range_fin]
      simp only [mulVec, dotProduct, Mat.asM_apply, ext0_fin]
      exact Finset.sum_congr rfl fun k _ => mul_comm _ _) j j.2
    rwa [ext0_fin] at this
  let g : ℕ → (Fin P.nc → ℝ) × ℝ := fun i => F.toList.getD i (0, 0)
  have hg : ∀ i < F.toList.length, g i ∈ F := fun i hi => by
    simp only [g, List.getD_eq_getElem _ _ hi]
    exact Finset.mem_toList.1 (List.getElem_mem hi)
  have hg' : ∀ f ∈ F, ∃ i < F.toList.length, g i = f := fun f hf => by
    obtain ⟨i, hi, e⟩ := List.getElem_of_mem (Finset.mem_toList.2 hf)
    exact ⟨i, hi, by simp only [g, List.getD_eq_getElem _ _ hi, e]⟩
  let E : Mat ℝ := ⟨F.toList.length, P.nc + 1, fun i j => if h : j < P.nc then (g i).1 ⟨j, h⟩ else (g i).2⟩
  have e1 : ∀ i (j : Fin P.nc), E.e i j = (g i).1 j := fun i j => dif_pos j.2
  have e2 : ∀ i, E.e i P.nc = (g i).2 := fun i => dif_neg (lt_irrefl _)
  refine ⟨E, rfl, fun i hi => ?_, fun x => ?_, fun i hi a c h => ?_⟩
  · rw [sum_range_fin]
    simp only [e1]
    exact f1 _ (hg i hi)
  · rw [inHull_iff, f2]
    unfold Spec.InHalfspaces
    have hs : ∀ i, ∑ j ∈ range P.nc, E.e i j * x j + E.e i P.nc = (g i).1 ⬝ᵥ (fun j : Fin P.nc => x j) + (g i).2 := by
      intro i
      rw [sum_range_fin, e2]
      simp only [e1, dotProduct]
    simp only [hs]
    constructor
    · intro h f hf
      obtain ⟨i, hi, rfl⟩ := hg' f hf
      exact h i hi
    · exact fun h i hi => h _ (hg i hi)
  · have hs : ∀ (k : Fin P.nr) (b : ℕ → ℝ), ∑ j ∈ range P.nc, b j * P.e k j = (P.asM P.nr P.nc *ᵥ fun j => b j) k := by
      intro k b
      rw [sum_range_fin]
      simp only [mulVec, dotProduct, Mat.asM_apply]
      exact Finset.sum_congr rfl fun k _ => mul_comm _ _
    obtain ⟨t, k1, k2⟩ := f3 _ (hg i hi) (fun j => a j) c fun k hk => by
      rw [← hs]
      refine h k k.2 ?_
      rw [hs, e2]
      simpa only [e1] using hk
    exact ⟨t, by rw [k2, e2], fun j hj => by rw [show a j = _ from congrFun k1 ⟨j, hj⟩, e1 i ⟨j, hj⟩]; rfl⟩

theorem inHalf_iff (n : ℕ) (H : Mat ℝ) (x : ℕ → ℝ) :
    Spec.InHalfspaces n H x ↔ (fun j : Fin n => x j) ∈ polySet (H.asM H.nr n) fun i => -H.e i n := by
  have hs : ∀ i : Fin H.nr, (H.asM H.nr n *ᵥ fun j : Fin n => x j) i = ∑ j ∈ range n, H.e i j * x j := fun i => by
    rw [sum_range_fin]; rfl
  constructor
  · intro h i
    rw [hs]
    linarith [h i i.2]
  · intro h i hi
    have := h ⟨i, hi⟩
    rw [hs] at this
    linarith

theorem isVertex_iff (n : ℕ) (H : Mat ℝ) (x : ℕ → ℝ) : Spec.IsVertex n (Spec.InHalfspaces n H) x ↔
    IsExt (polySet (H.asM H.nr n) fun i => -H.e i n) fun j : Fin n => x j := by
  unfold Spec.IsVertex IsExt
  simp only [inHalf_iff]
  refine and_congr_right fun _ => ⟨fun h v h1 h2 => ?_, fun h v h1 h2 j hj => ?_⟩
  · funext j
    rw [← ext0_fin v j]
    refine h (ext0 v) ?_ ?_ j j.2
    · simp only [ext0_fin]
      exact h1
    · simp only [ext0_fin]
      exact h2
  · exact congrFun (h (fun j => v j) h1 h2) ⟨j, hj⟩

theorem exists_intersections (H : Mat ℝ) (n : ℕ) : ∃ V : Mat ℝ, V.nc = n ∧
    ∀ x : ℕ → ℝ, (∃ k < V.nr, ∀ j < n, x j = V.e k j) ↔ Spec.IsVertex n (Spec.InHalfspaces n H) x := by
  have hf := ext_finite (H.asM H.nr n) fun i => -H.e i n
  let l := hf.toFinset.toList
  let V : Mat ℝ := ⟨l.length, n, fun k => ext0 (l.getD k 0)⟩
  refine ⟨V, rfl, fun x => ?_⟩
  rw [isVertex_iff]
  have hm : ∀ y, y ∈ l ↔ IsExt (polySet (H.asM H.nr n) fun i => -H.e i n) y := fun y => by simp [l]
  rw [← hm]
  constructor
  · rintro ⟨k, hk, h⟩
    have : (fun j : Fin n => x j) = l.getD k 0 := funext fun j => by rw [h j j.2]; exact ext0_fin _ _
    rw [this, List.getD_eq_getElem _ _ hk]
    exact List.getElem_mem hk
  · intro h
    obtain ⟨k, hk, e⟩ := List.getElem_of_mem h
    refine ⟨k, hk, fun j hj => ?_⟩
    show x j = ext0 (l.getD k 0) j
    rw [List.getD_eq_getElem _ _ hk, e, ext0_lt _ hj]

theorem exists_qhull : ∃ Q : Qhull, QhullSpec Q := by
  classical
  let f : Mat ℝ → Py (Mat ℝ) := fun P => if h : 2 ≤ P.nc ∧ Spec.FullDim P then .ok (exists_equations P h.1 h.2).choose else .error .valueError
  let g : Mat ℝ → Vec ℝ → Py (Mat ℝ) := fun H c =>
    if ∃ i < H.nr, 0 ≤ ∑ j ∈ range c.n, H.e i j * c.e j + H.e i c.n then .error .valueError else .ok (exists_intersections H c.n).choose
  refine ⟨⟨f, g⟩, fun P h1 h2 => ?_, fun P h => ⟨_, dif_neg fun h' => h h'.2⟩, fun P h => dif_neg fun h' => by omega, fun H c h1 h2 h3 h4 => ?_, fun H c h => ⟨_, if_pos h⟩⟩
  · exact ⟨_, dif_pos ⟨h1, h2⟩, (exists_equations P h1 h2).choose_spec⟩
  · refine ⟨_, if_neg ?_, (exists_intersections H c.n).choose_spec⟩
    push Not
    exact h3

/-- points of `R^n`, as many as coordinates, are on a hyperplane -/
theorem exists_plane {n : ℕ} (p : Fin n → Fin n → ℝ) : ∃ (a : Fin n → ℝ) (d : ℝ), (a ≠ 0 ∨ d ≠ 0) ∧ ∀ k, ∑ j, a j * p k j = d := by
  let f : ((Fin n → ℝ) × ℝ) →ₗ[ℝ] (Fin n → ℝ) :=
    { toFun := fun ad k => ∑ j, ad.1 j * p k j - ad.2
      map_add' := fun x y => by
        funext k
        simp only [Prod.fst_add, Prod.snd_add, Pi.add_apply, add_mul, Finset.sum_add_distrib]
        ring
      map_smul' := fun c x => by
        funext k
        simp only [Prod.smul_fst, Prod.smul_snd, Pi.smul_apply, smul_eq_mul, mul_assoc, ← Finset.mul_sum, RingHom.id_apply]
        ring }
  have hk : LinearMap.ker f ≠ ⊥ := LinearMap.ker_ne_bot_of_finrank_lt (by simp)
  obtain ⟨x, hx, hx0⟩ := (Submodule.ne_bot_iff _).1 hk
  refine ⟨x.1, x.2, ?_, fun k => ?_⟩
  · by_contra h
    push Not at h
    exact hx0 (Prod.ext h.1 h.2)
  · have := congrFun (LinearMap.mem_ker.1 hx) k
    have : ∑ j, x.1 j * p k j - x.2 = 0 := this
    linarith

theorem exists_offset (l : List (Vec ℝ)) (n : ℕ) (hl : l.length = n) (hn : 0 < n) (h : Spec.AffIndep n l) :
    ∃ o : Vec ℝ, o.n = n ∧ (∀ j, 0 ≤ o.e j ∧ o.e j < 1) ∧
      ∀ c : Fin l.length → ℝ, (∀ j < n, ∑ k, c k * ((l[k]).e j + o.e j) = 0) → c = 0 := by
  subst hl
  obtain ⟨a, d, had, hp⟩ := exists_plane fun (k : Fin l.length) (j : Fin l.length) => (l[k]).e j
  have key : ∀ o : ℕ → ℝ, d + ∑ j, a j * o j ≠ 0 → ∀ c : Fin l.length → ℝ, (∀ j < l.length, ∑ k, c k * ((l[k]).e j + o j) = 0) → c = 0 := by
    intro o ho c hc
    have hsum : (∑ k, c k) * (d + ∑ j, a j * o j) = 0 := by
      calc (∑ k, c k) * (d + ∑ j, a j * o j) = ∑ k, c k * ∑ j, a j * ((l[k]).e j + o j) := by
            rw [Finset.sum_mul]
            refine Finset.sum_congr rfl fun k _ => ?_
            rw [← hp k, ← Finset.sum_add_distrib]
            simp only [mul_add]
        _ = ∑ j : Fin l.length, a j * ∑ k, c k * ((l[k]).e j + o j) := by
            simp only [Finset.mul_sum]
            rw [Finset.sum_comm]
            refine Finset.sum_congr rfl fun k _ => Finset.sum_congr rfl fun j _ => by ring
        _ = 0 := Finset.sum_eq_zero fun j _ => by rw [hc j j.2, mul_zero]
    have h0 : ∑ k, c k = 0 := (mul_eq_zero.1 hsum).resolve_right ho
    refine h c h0 fun j hj => ?_
    have := hc j hj
    simp only [mul_add, Finset.sum_add_distrib, ← Finset.sum_mul, h0, zero_mul, add_zero] at this
    exact this
  by_cases hd : d = 0
  · have ha : a ≠ 0 := had.resolve_right (by simpa using hd)
    obtain ⟨j0, hj0⟩ : ∃ j, a j ≠ 0 := by
      by_contra h'
      push Not at h'
      exact ha (funext h')
    refine ⟨⟨l.length, fun j => if j = j0 then 1 / 2 else 0⟩, rfl, fun j => ?_, key _ ?_⟩
    · dsimp only
      split_ifs <;> norm_num
    · rw [hd, zero_add, Finset.sum_eq_single j0 (fun j _ hj => by dsimp only; rw [if_neg (fun h => hj (Fin.ext h)), mul_zero]) (by simp)]
      simpa using hj0
  · refine ⟨⟨l.length, fun _ => 0⟩, rfl, fun j => by norm_num, key _ (by simpa using hd)⟩

theorem exists_rand : ∃ rand, RandSpec rand := by
  classical
  refine ⟨fun l => if h : 0 < l.length ∧ Spec.AffIndep l.length l then (exists_offset l _ rfl h.1 h.2).choose else ⟨l.length, fun _ => 0⟩, ?_, ?_⟩
  · intro l
    split_ifs with h
    · exact (exists_offset l _ rfl h.1 h.2).choose_spec.2.1
    · intro j; norm_num
  · intro l n h1 h2 h3 c hc
    subst h1
    by_cases h0 : 0 < l.length
    · rw [dif_pos ⟨h0, h3⟩] at hc
      exact (exists_offset l _ rfl h0 h3).choose_spec.2.2 c hc
    · funext k
      exact absurd k.2 (by omega)

end Verif
