import Mathlib.LinearAlgebra.Matrix.ToLin
import Mathlib.Algebra.BigOperators.Fin
import Verif.Np.Array

/- Bridge between the arrays of the model and Mathlib's matrices. -/
namespace Verif
open Finset Matrix

variable {K : Type}

namespace Vec

theorem Same.refl (u : Vec K) : u.Same u := ⟨rfl, fun _ _ => rfl⟩
theorem Same.symm {u v : Vec K} (h : u.Same v) : v.Same u :=
  ⟨h.1.symm, fun i hi => (h.2 i (h.1 ▸ hi)).symm⟩
theorem Same.trans {u v w : Vec K} (h : u.Same v) (h' : v.Same w) : u.Same w :=
  ⟨h.1.trans h'.1, fun i hi => (h.2 i hi).trans (h'.2 i (h.1 ▸ hi))⟩

@[simp] theorem zeros_n [Zero K] (n : ℕ) : (zeros n : Vec K).n = n := rfl
@[simp] theorem zeros_e [Zero K] (n i : ℕ) : (zeros n : Vec K).e i = 0 := rfl
@[simp] theorem ones_n [One K] (n : ℕ) : (ones n : Vec K).n = n := rfl
@[simp] theorem ones_e [One K] (n i : ℕ) : (ones n : Vec K).e i = 1 := rfl
@[simp] theorem neg_n [Neg K] (v : Vec K) : v.neg.n = v.n := rfl
@[simp] theorem neg_e [Neg K] (v : Vec K) (i : ℕ) : v.neg.e i = - v.e i := rfl
@[simp] theorem add_n [Add K] (u v : Vec K) : (u.add v).n = u.n := rfl
@[simp] theorem add_e [Add K] (u v : Vec K) (i : ℕ) : (u.add v).e i = u.e i + v.e i := rfl
@[simp] theorem sub_n [Sub K] (u v : Vec K) : (u.sub v).n = u.n := rfl
@[simp] theorem sub_e [Sub K] (u v : Vec K) (i : ℕ) : (u.sub v).e i = u.e i - v.e i := rfl
@[simp] theorem smul_n [Mul K] (a : K) (v : Vec K) : (v.smul a).n = v.n := rfl
@[simp] theorem smul_e [Mul K] (a : K) (v : Vec K) (i : ℕ) : (v.smul a).e i = a * v.e i := rfl
@[simp] theorem divS_n [Div K] (a : K) (v : Vec K) : (v.divS a).n = v.n := rfl
@[simp] theorem divS_e [Div K] (a : K) (v : Vec K) (i : ℕ) : (v.divS a).e i = v.e i / a := rfl
@[simp] theorem append_n (u v : Vec K) : (u.append v).n = u.n + v.n := rfl
theorem append_e (u v : Vec K) (i : ℕ) :
    (u.append v).e i = if i < u.n then u.e i else v.e (i - u.n) := rfl
theorem append_e_lt (u v : Vec K) {i : ℕ} (h : i < u.n) : (u.append v).e i = u.e i := if_pos h
theorem append_e_add (u v : Vec K) (i : ℕ) : (u.append v).e (u.n + i) = v.e i := by
  rw [append_e, if_neg (by omega)]; congr 1; omega
@[simp] theorem slice_n (v : Vec K) (a b : ℕ) : (v.slice a b).n = min b v.n - a := rfl
@[simp] theorem slice_e (v : Vec K) (a b i : ℕ) : (v.slice a b).e i = v.e (a + i) := rfl
@[simp] theorem dropN_n (v : Vec K) (a : ℕ) : (v.dropN a).n = v.n - a := rfl
@[simp] theorem dropN_e (v : Vec K) (a i : ℕ) : (v.dropN a).e i = v.e (a + i) := rfl
@[simp] theorem take_n (v : Vec K) (l : List ℕ) : (v.take l).n = l.length := rfl
@[simp] theorem ofFn_n [Zero K] {n : ℕ} (f : Fin n → K) : (ofFn f).n = n := rfl
theorem ofFn_e [Zero K] {n : ℕ} (f : Fin n → K) (i : Fin n) : (ofFn f).e i = f i := by
  simp [ofFn]
@[simp] theorem ofFn_asV [Zero K] {n : ℕ} (f : Fin n → K) : (ofFn f).asV n = f := by
  funext i; simp [asV, ofFn]
@[simp] theorem asV_apply (v : Vec K) (n : ℕ) (i : Fin n) : v.asV n i = v.e i := rfl
@[simp] theorem ofList_n [Zero K] (l : List K) : (ofList l).n = l.length := rfl

theorem dot_asV [AddCommMonoid K] [Mul K] (u v : Vec K) {n : ℕ} (h : u.n = n) :
    u.dot v = u.asV n ⬝ᵥ v.asV n := by
  subst h; simp [dot, dotProduct, asV, Finset.sum_range]

theorem append_sum [AddCommMonoid K] [Mul K] (u v : Vec K) (g : ℕ → K) :
    ∑ i ∈ range (u.n + v.n), (u.append v).e i * g i
      = ∑ i ∈ range u.n, u.e i * g i + ∑ i ∈ range v.n, v.e i * g (u.n + i) := by
  rw [Finset.sum_range_add]
  congr 1
  · exact Finset.sum_congr rfl fun i hi => by rw [append_e_lt _ _ (mem_range.1 hi)]
  · exact Finset.sum_congr rfl fun i _ => by rw [append_e_add]

end Vec

namespace Mat

theorem Same.refl (u : Mat K) : u.Same u := ⟨rfl, rfl, fun _ _ _ _ => rfl⟩
theorem Same.symm {u v : Mat K} (h : u.Same v) : v.Same u :=
  ⟨h.1.symm, h.2.1.symm, fun i hi j hj => (h.2.2 i (h.1 ▸ hi) j (h.2.1 ▸ hj)).symm⟩
theorem Same.trans {u v w : Mat K} (h : u.Same v) (h' : v.Same w) : u.Same w :=
  ⟨h.1.trans h'.1, h.2.1.trans h'.2.1,
    fun i hi j hj => (h.2.2 i hi j hj).trans (h'.2.2 i (h.1 ▸ hi) j (h.2.1 ▸ hj))⟩

@[simp] theorem zeros_nr [Zero K] (m n : ℕ) : (zeros m n : Mat K).nr = m := rfl
@[simp] theorem zeros_nc [Zero K] (m n : ℕ) : (zeros m n : Mat K).nc = n := rfl
@[simp] theorem zeros_e [Zero K] (m n i j : ℕ) : (zeros m n : Mat K).e i j = 0 := rfl
@[simp] theorem eye_nr [Zero K] [One K] (n : ℕ) : (eye n : Mat K).nr = n := rfl
@[simp] theorem eye_nc [Zero K] [One K] (n : ℕ) : (eye n : Mat K).nc = n := rfl
theorem eye_e [Zero K] [One K] (n i j : ℕ) : (eye n : Mat K).e i j = if i = j then 1 else 0 := rfl
@[simp] theorem T_nr (A : Mat K) : A.T.nr = A.nc := rfl
@[simp] theorem T_nc (A : Mat K) : A.T.nc = A.nr := rfl
@[simp] theorem T_e (A : Mat K) (i j : ℕ) : A.T.e i j = A.e j i := rfl
@[simp] theorem neg_nr [Neg K] (A : Mat K) : A.neg.nr = A.nr := rfl
@[simp] theorem neg_nc [Neg K] (A : Mat K) : A.neg.nc = A.nc := rfl
@[simp] theorem neg_e [Neg K] (A : Mat K) (i j : ℕ) : A.neg.e i j = - A.e i j := rfl
@[simp] theorem add_nr [Add K] (A B : Mat K) : (A.add B).nr = A.nr := rfl
@[simp] theorem add_nc [Add K] (A B : Mat K) : (A.add B).nc = A.nc := rfl
@[simp] theorem add_e [Add K] (A B : Mat K) (i j : ℕ) : (A.add B).e i j = A.e i j + B.e i j := rfl
@[simp] theorem sub_nr [Sub K] (A B : Mat K) : (A.sub B).nr = A.nr := rfl
@[simp] theorem sub_nc [Sub K] (A B : Mat K) : (A.sub B).nc = A.nc := rfl
@[simp] theorem sub_e [Sub K] (A B : Mat K) (i j : ℕ) : (A.sub B).e i j = A.e i j - B.e i j := rfl
@[simp] theorem smul_nr [Mul K] (a : K) (A : Mat K) : (A.smul a).nr = A.nr := rfl
@[simp] theorem smul_nc [Mul K] (a : K) (A : Mat K) : (A.smul a).nc = A.nc := rfl
@[simp] theorem smul_e [Mul K] (a : K) (A : Mat K) (i j : ℕ) : (A.smul a).e i j = a * A.e i j := rfl
@[simp] theorem vapp_nr (A B : Mat K) : (A.vapp B).nr = A.nr + B.nr := rfl
@[simp] theorem vapp_nc (A B : Mat K) : (A.vapp B).nc = A.nc := rfl
theorem vapp_e (A B : Mat K) (i j : ℕ) :
    (A.vapp B).e i j = if i < A.nr then A.e i j else B.e (i - A.nr) j := rfl
theorem vapp_e_lt (A B : Mat K) {i : ℕ} (j : ℕ) (h : i < A.nr) : (A.vapp B).e i j = A.e i j :=
  if_pos h
theorem vapp_e_add (A B : Mat K) (i j : ℕ) : (A.vapp B).e (A.nr + i) j = B.e i j := by
  rw [vapp_e, if_neg (by omega)]; congr 1; omega
@[simp] theorem happ_nr (A B : Mat K) : (A.happ B).nr = A.nr := rfl
@[simp] theorem happ_nc (A B : Mat K) : (A.happ B).nc = A.nc + B.nc := rfl
theorem happ_e (A B : Mat K) (i j : ℕ) :
    (A.happ B).e i j = if j < A.nc then A.e i j else B.e i (j - A.nc) := rfl
theorem happ_e_lt (A B : Mat K) (i : ℕ) {j : ℕ} (h : j < A.nc) : (A.happ B).e i j = A.e i j :=
  if_pos h
theorem happ_e_add (A B : Mat K) (i j : ℕ) : (A.happ B).e i (A.nc + j) = B.e i j := by
  rw [happ_e, if_neg (by omega)]; congr 1; omega
@[simp] theorem ofRow_nr (v : Vec K) : (ofRow v).nr = 1 := rfl
@[simp] theorem ofRow_nc (v : Vec K) : (ofRow v).nc = v.n := rfl
@[simp] theorem ofRow_e (v : Vec K) (i j : ℕ) : (ofRow v).e i j = v.e j := rfl
@[simp] theorem ofCol_nr (v : Vec K) : (ofCol v).nr = v.n := rfl
@[simp] theorem ofCol_nc (v : Vec K) : (ofCol v).nc = 1 := rfl
@[simp] theorem ofCol_e (v : Vec K) (i j : ℕ) : (ofCol v).e i j = v.e i := rfl
@[simp] theorem row_n (A : Mat K) (i : ℕ) : (A.row i).n = A.nc := rfl
@[simp] theorem row_e (A : Mat K) (i j : ℕ) : (A.row i).e j = A.e i j := rfl
@[simp] theorem col_n (A : Mat K) (j : ℕ) : (A.col j).n = A.nr := rfl
@[simp] theorem col_e (A : Mat K) (i j : ℕ) : (A.col j).e i = A.e i j := rfl
@[simp] theorem rows_nr (A : Mat K) (l : List ℕ) : (A.rows l).nr = l.length := rfl
@[simp] theorem rows_nc (A : Mat K) (l : List ℕ) : (A.rows l).nc = A.nc := rfl
@[simp] theorem cols_nr (A : Mat K) (l : List ℕ) : (A.cols l).nr = A.nr := rfl
@[simp] theorem cols_nc (A : Mat K) (l : List ℕ) : (A.cols l).nc = l.length := rfl
@[simp] theorem mul_nr [AddCommMonoid K] [Mul K] (A B : Mat K) : (A.mul B).nr = A.nr := rfl
@[simp] theorem mul_nc [AddCommMonoid K] [Mul K] (A B : Mat K) : (A.mul B).nc = B.nc := rfl
theorem mul_e [AddCommMonoid K] [Mul K] (A B : Mat K) (i j : ℕ) :
    (A.mul B).e i j = ∑ k ∈ range A.nc, A.e i k * B.e k j := rfl
@[simp] theorem mulVec_n [AddCommMonoid K] [Mul K] (A : Mat K) (x : Vec K) :
    (A.mulVec x).n = A.nr := rfl
theorem mulVec_e [AddCommMonoid K] [Mul K] (A : Mat K) (x : Vec K) (i : ℕ) :
    (A.mulVec x).e i = ∑ j ∈ range A.nc, A.e i j * x.e j := rfl
@[simp] theorem vecMul_n [AddCommMonoid K] [Mul K] (A : Mat K) (x : Vec K) :
    (vecMul x A).n = A.nc := rfl
theorem vecMul_e [AddCommMonoid K] [Mul K] (A : Mat K) (x : Vec K) (j : ℕ) :
    (vecMul x A).e j = ∑ i ∈ range x.n, x.e i * A.e i j := rfl
@[simp] theorem ofM_nr [Zero K] {m n : ℕ} (M : Matrix (Fin m) (Fin n) K) : (ofM M).nr = m := rfl
@[simp] theorem ofM_nc [Zero K] {m n : ℕ} (M : Matrix (Fin m) (Fin n) K) : (ofM M).nc = n := rfl
@[simp] theorem ofM_asM [Zero K] {m n : ℕ} (M : Matrix (Fin m) (Fin n) K) :
    (ofM M).asM m n = M := by
  funext i j; simp [asM, ofM]
@[simp] theorem asM_apply (A : Mat K) (m n : ℕ) (i : Fin m) (j : Fin n) :
    A.asM m n i j = A.e i j := rfl
@[simp] theorem asM_T (A : Mat K) (m n : ℕ) : A.T.asM n m = (A.asM m n)ᵀ := rfl
theorem asM_neg [Neg K] (A : Mat K) (m n : ℕ) : A.neg.asM m n = - A.asM m n := rfl
theorem asM_add [Add K] (A B : Mat K) (m n : ℕ) : (A.add B).asM m n = A.asM m n + B.asM m n := rfl
theorem asM_sub [Sub K] (A B : Mat K) (m n : ℕ) : (A.sub B).asM m n = A.asM m n - B.asM m n := rfl
theorem asM_smul [Mul K] (a : K) (A : Mat K) (m n : ℕ) : (A.smul a).asM m n = a • A.asM m n := rfl
theorem asM_eye [Zero K] [One K] (n : ℕ) : (eye n : Mat K).asM n n = 1 := by
  funext i j
  simp only [asM, eye, Matrix.one_apply, Fin.ext_iff]
theorem asM_zeros [Zero K] (m n : ℕ) : (zeros m n : Mat K).asM m n = 0 := rfl

theorem asM_mul [NonUnitalNonAssocSemiring K] (A B : Mat K) (m k : ℕ) {n : ℕ} (h : A.nc = n) :
    (A.mul B).asM m k = A.asM m n * B.asM n k := by
  subst h; funext i j
  simp [asM, mul, Matrix.mul_apply, Finset.sum_range]

theorem asV_mulVec [NonUnitalNonAssocSemiring K] (A : Mat K) (x : Vec K) (m : ℕ) {n : ℕ}
    (h : A.nc = n) : (A.mulVec x).asV m = A.asM m n *ᵥ x.asV n := by
  subst h; funext i
  simp [Vec.asV, asM, mulVec, Matrix.mulVec, dotProduct, Finset.sum_range]

theorem asV_vecMul [NonUnitalNonAssocSemiring K] (A : Mat K) (x : Vec K) (n : ℕ) {m : ℕ}
    (h : x.n = m) : (vecMul x A).asV n = x.asV m ᵥ* A.asM m n := by
  subst h; funext i
  simp [Vec.asV, asM, vecMul, Matrix.vecMul, dotProduct, Finset.sum_range]

/-- a matrix-vector product only reads entries inside the shape -/
theorem mulVec_e_congr [AddCommMonoid K] [Mul K] {A A' : Mat K} {x x' : Vec K} {i i' : ℕ}
    (hc : A.nc = A'.nc) (hA : ∀ j < A.nc, A.e i j = A'.e i' j) (hx : ∀ j < A.nc, x.e j = x'.e j) :
    (A.mulVec x).e i = (A'.mulVec x').e i' := by
  rw [mulVec_e, mulVec_e, ← hc]
  exact Finset.sum_congr rfl fun j hj => by
    rw [hA j (mem_range.1 hj), hx j (mem_range.1 hj)]

theorem vapp_mulVec_lt [AddCommMonoid K] [Mul K] (A B : Mat K) (x : Vec K) {i : ℕ} (h : i < A.nr) :
    ((A.vapp B).mulVec x).e i = (A.mulVec x).e i := by
  simp only [mulVec_e, vapp_nc, vapp_e_lt _ _ _ h]

theorem vapp_mulVec_add [AddCommMonoid K] [Mul K] (A B : Mat K) (x : Vec K) (i : ℕ)
    (hc : A.nc = B.nc) : ((A.vapp B).mulVec x).e (A.nr + i) = (B.mulVec x).e i := by
  simp only [mulVec_e, vapp_nc, vapp_e_add, hc]

theorem happ_mulVec [NonUnitalNonAssocSemiring K] (A B : Mat K) (x : Vec K) (i : ℕ) :
    ((A.happ B).mulVec x).e i
      = (A.mulVec x).e i + ∑ j ∈ range B.nc, B.e i j * x.e (A.nc + j) := by
  simp only [mulVec_e, happ_nc]
  rw [Finset.sum_range_add]
  congr 1
  · exact Finset.sum_congr rfl fun j hj => by rw [happ_e_lt _ _ _ (mem_range.1 hj)]
  · exact Finset.sum_congr rfl fun j _ => by rw [happ_e_add]

end Mat

theorem forall_lt_add {P : ℕ → Prop} {a b : ℕ} :
    (∀ i < a + b, P i) ↔ (∀ i < a, P i) ∧ ∀ i < b, P (a + i) := by
  constructor
  · intro h; exact ⟨fun i hi => h i (by omega), fun i hi => h _ (by omega)⟩
  · rintro ⟨h1, h2⟩ i hi
    by_cases h : i < a
    · exact h1 i h
    · have := h2 (i - a) (by omega)
      rwa [show a + (i - a) = i by omega] at this

theorem forall_fin_iff {P : ℕ → Prop} {n : ℕ} : (∀ i : Fin n, P i) ↔ ∀ i < n, P i :=
  ⟨fun h i hi => h ⟨i, hi⟩, fun h i => h i i.2⟩

end Verif
