import Verif.Math.Factor
import Verif.Model.Lib
import Verif.Proofs.Pnnls

/-
The contract `LibSpec` can be met: there are routines that satisfy it, so a theorem with the
hypothesis `LibSpec L` is not vacuous.
-/
namespace Verif
open Finset Matrix Verif.Math

theorem exists_lib : ∃ L : Lib, LibSpec L := by
  classical
  -- nnls
  have hn : ∀ (A : Mat ℝ) (b : Vec ℝ), ∃ y : Vec ℝ, y.n = A.nc ∧ (∀ i < A.nc, 0 ≤ y.e i) ∧
      (A.nr = b.n → ∀ z : Vec ℝ, (∀ i < A.nc, 0 ≤ z.e i) →
        vnorm ((A.mulVec y).sub b) ≤ vnorm ((A.mulVec z).sub b)) := by
    intro A b
    obtain ⟨y, hy0, hy⟩ := nnls_exists (A.asM A.nr A.nc) (b.asV A.nr)
    refine ⟨Vec.ofFn y, rfl, ?_, ?_⟩
    · intro i hi
      simpa [Vec.ofFn, hi] using hy0 ⟨i, hi⟩
    · intro _ z hz
      have := hy (z.asV A.nc) (fun i => hz i i.2)
      have e1 : ∀ w : Vec ℝ, ((A.mulVec w).sub b).asV A.nr
          = A.asM A.nr A.nc *ᵥ w.asV A.nc - b.asV A.nr := by
        intro w
        rw [← Mat.asV_mulVec A w A.nr rfl]; rfl
      have e2 : (Vec.ofFn y).asV A.nc = y := by
        funext i; simp [Vec.asV, Vec.ofFn]
      unfold vnorm
      apply Real.sqrt_le_sqrt
      have e3 : ∀ w : Vec ℝ, ∑ i ∈ range ((A.mulVec w).sub b).n, ((A.mulVec w).sub b).e i ^ 2
          = nsq (((A.mulVec w).sub b).asV A.nr) := by
        intro w
        rw [nsq, dotProduct]
        have : ((A.mulVec w).sub b).n = A.nr := rfl
        rw [this, ← Fin.sum_univ_eq_sum_range (fun i => ((A.mulVec w).sub b).e i ^ 2)]
        exact Finset.sum_congr rfl fun i _ => by rw [pow_two]; rfl
      rw [e3, e3, e1, e1, e2]
      exact this
  choose fn hn1 hn2 hn3 using hn
  choose P p1 p2 p3 p4 using fun A : Mat ℝ => exists_pinv (A.asM A.nr A.nc)
  choose V v1 v2 using fun A : Mat ℝ => exists_svdV (A.asM A.nr A.nc)
  choose Q R r1 r2 r3 using fun A : Mat ℝ => exists_qr A.nr A.nc (A.asM A.nr A.nc)
  have aM : ∀ {m n : ℕ} (M : Matrix (Fin m) (Fin n) ℝ), (Mat.ofM M).asM m n = M := by
    intro m n M; funext i j; simp [Mat.asM, Mat.ofM]
  refine ⟨{ nnls := fun A b => (fn A b, vnorm ((A.mulVec (fn A b)).sub b))
            pinv := fun A => Mat.ofM (P A)
            cholesky := fun H =>
              if h : (H.asM H.nr H.nr).PosDef then .ok (Mat.ofM (exists_chol h).choose)
              else .error .linAlgError
            svdV := fun A => Mat.ofM (V A)
            qrR := fun A => Mat.ofM (R A) }, ?_⟩
  constructor
  · intro A b _; exact hn1 A b
  · intro A b _; exact hn2 A b
  · intro A b h; exact hn3 A b h
  · intro A b _; rfl
  · intro A; rfl
  · intro A; rfl
  · intro A; rw [aM]; exact p1 A
  · intro A; rw [aM]; exact p2 A
  · intro A; rw [aM]; exact p3 A
  · intro A; rw [aM]; exact p4 A
  · intro H _ h
    refine ⟨Mat.ofM (exists_chol h).choose, ?_, rfl, rfl, ?_⟩
    · simp [h]
    · rw [aM]; exact (exists_chol h).choose_spec
  · intro H _ _ h
    simp [h]
  · intro A; rfl
  · intro A; rfl
  · intro A; rw [aM]; exact v1 A
  · intro A j hj hr i hi
    have := v2 A ⟨j, hj⟩ hr ⟨i, hi⟩
    rw [← this]
    have e : A.asM A.nr A.nc * V A = (A.mul (Mat.ofM (V A))).asM A.nr A.nc := by
      rw [Mat.asM_mul A (Mat.ofM (V A)) A.nr A.nc (n := A.nc) rfl, aM]
    rw [e]; rfl
  · intro A; rfl
  · intro A; rfl
  · intro A i j hij hi
    simp only [Mat.ofM]
    split
    · rename_i h; exact r3 A ⟨i, h.1⟩ ⟨j, h.2⟩ hij
    · rfl
  · intro A
    exact ⟨Q A, r1 A, by rw [aM]; exact r2 A⟩

end Verif
