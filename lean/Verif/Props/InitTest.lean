import Verif.Model.TestInit
import Verif.Props.Discretization
import Verif.Props.PwaSystem
import Verif.Proofs.ExampleGraph

/- C200: the tests of wrong initializations. -/
namespace Verif.TestSuite
open Dyn Verif.Props

/-- a call is rejected with `ValueError` -/
def Rejected {α : Type} (m : Py α) : Prop := m = .error .valueError

theorem assertValueError_rejected {α : Type} {m : Py α} (h : Rejected m) : assertValueError m = .ok () := by
  unfold Rejected at h
  subst h
  rfl

theorem check_rejected {A B : Mat ℝ} {c : Option (NDArr ℝ)} {h : Option ℝ} (hv : ¬ ValidSystem A B c h) :
    Rejected (check_affine_system A B c h) := (C47 A B c h).2 hv

theorem linear_rejected {A B : Mat ℝ} (hv : ¬ ValidSystem A B none none) : Rejected (LinearSystem.init A B) := by
  unfold Rejected LinearSystem.init
  rw [(C47 A B none none).2 hv]
  rfl

theorem affine_rejected {A B : Mat ℝ} {c : NDArr ℝ} (hv : ¬ ValidSystem A B (some c) none) : Rejected (AffineSystem.init A B c) := by
  unfold Rejected AffineSystem.init
  rw [(C47 A B (some c) none).2 hv]
  rfl

theorem affine_ones (n m : ℕ) : AffineSystem.init (onesM n n) (onesM n m) (.d1 (full n 1)) =
    .ok ⟨onesM n n, onesM n m, full n 1, n, m⟩ := by
  unfold AffineSystem.init
  rw [(C47 (onesM n n) (onesM n m) (some (.d1 (full n 1))) none).1
    ⟨rfl, rfl, fun c' h => by cases h; exact ⟨_, rfl, rfl⟩, fun _ h => by cases h⟩]
  rfl

theorem init_ones (m n : ℕ) : ∃ D, Poly.init (onesM m n) (.d1 (full m 1)) = .ok D ∧ D.A.nc = n := by
  obtain ⟨p, h, hA, -⟩ := Example.init_none (A := onesM m n) (b := full m 1) rfl
  exact ⟨p, h, by rw [hA]; rfl⟩

theorem ok_ones (n m : ℕ) : SysOk (.aff ⟨onesM n n, onesM n m, full n 1, n, m⟩) := by
  exact ⟨rfl, rfl, rfl, rfl, rfl⟩

theorem pwa_rejected {s : List Sys} {d : List Poly} (hs : ∀ S ∈ s, SysOk S)
    (h : ¬ (s ≠ [] ∧ s.length = d.length ∧ ∃ nx nu, (∀ S ∈ s, S.nx = nx ∧ S.nu = nu) ∧ ∀ D ∈ d, D.A.nc = nx + nu)) :
    Rejected (PWA.init s d) := by
  obtain ⟨h1, h2, -⟩ := C58 s d hs
  unfold Rejected
  cases e : PWA.init s d with
  | ok P => exact absurd (h1.1 ⟨P, e⟩) h
  | error x => rw [h2 x e]

/-- C200: the tests of wrong initializations pass: `test_check_affine_system` and the three `test_intialization` of linear, affine and
piecewise affine systems.  The faults of the last one are the announced ones: the same systems and domains without the fault, any positive
number of each, are accepted. -/
theorem C200 : test_check_affine_system = .ok () ∧ test_linear_intialization = .ok () ∧ test_affine_intialization = .ok () ∧
    test_pwa_intialization = .ok () ∧
    ∀ (k : ℕ) (S : AffineSystem) (D : Poly), AffineSystem.init (onesM 3 3) (onesM 3 2) (.d1 (full 3 1)) = .ok S →
      Poly.init (onesM 9 5) (.d1 (full 9 1)) = .ok D →
      ∃ P, PWA.init (List.replicate (k + 1) (.aff S)) (List.replicate (k + 1) D) = .ok P ∧ P.nx = 3 ∧ P.nu = 2 ∧ P.nm = k + 1 := by
  refine ⟨?_, ?_, ?_, ?_, ?_⟩
  · unfold test_check_affine_system
    rw [assertValueError_rejected (check_rejected fun h => by have := h.1; simp [onesM] at this), Py.ok_bind,
      assertValueError_rejected (check_rejected fun h => by have := h.2.1; simp [onesM] at this), Py.ok_bind,
      assertValueError_rejected (check_rejected fun h => by
        obtain ⟨v, e, hv⟩ := h.2.2.1 _ rfl
        cases e
        simp [onesM, full] at hv), Py.ok_bind,
      assertValueError_rejected (check_rejected fun h => by
        obtain ⟨v, e, hv⟩ := h.2.2.1 _ rfl
        cases e), Py.ok_bind]
    exact assertValueError_rejected (check_rejected fun h => by have := h.2.2.2 _ rfl; norm_num at this)
  · unfold test_linear_intialization
    rw [assertValueError_rejected (linear_rejected fun h => by have := h.2.1; simp [onesM] at this), Py.ok_bind]
    exact assertValueError_rejected (linear_rejected fun h => by have := h.1; simp [onesM] at this)
  · unfold test_affine_intialization
    rw [assertValueError_rejected (affine_rejected fun h => by have := h.2.1; simp [onesM] at this), Py.ok_bind,
      assertValueError_rejected (affine_rejected fun h => by have := h.1; simp [onesM] at this), Py.ok_bind]
    exact assertValueError_rejected (affine_rejected fun h => by
        obtain ⟨v, e, hv⟩ := h.2.2.1 _ rfl
        cases e
        simp [onesM, full] at hv)
  · obtain ⟨D, hD, nD⟩ := init_ones 9 5
    obtain ⟨D', hD', nD'⟩ := init_ones 9 4
    have o1 := ok_ones 3 2
    have o2 := ok_ones 2 2
    have o3 := ok_ones 3 1
    unfold test_pwa_intialization
    rw [affine_ones 3 2, Py.ok_bind, hD, Py.ok_bind]
    dsimp only
    rw [assertValueError_rejected (pwa_rejected (fun S hS => by rw [List.eq_of_mem_replicate hS]; exact o1) fun h => by
        have := h.2.1
        simp at this), Py.ok_bind, affine_ones 2 2, Py.ok_bind,
      assertValueError_rejected (pwa_rejected (fun S hS => by
          rcases List.mem_append.1 hS with hS | hS
          · rw [List.eq_of_mem_replicate hS]; exact o1
          · rw [List.mem_singleton.1 hS]; exact o2) fun h => by
        obtain ⟨-, -, nx, nu, h1, -⟩ := h
        have a := (h1 _ (List.mem_append_left _ (List.mem_replicate.2 ⟨by norm_num, rfl⟩))).1
        have b := (h1 _ (List.mem_append_right _ (List.mem_singleton.2 rfl))).1
        simp only [Sys.nx] at a b
        omega), Py.ok_bind, affine_ones 3 1, Py.ok_bind, List.dropLast_concat,
      assertValueError_rejected (pwa_rejected (fun S hS => by
          rcases List.mem_append.1 hS with hS | hS
          · rw [List.eq_of_mem_replicate hS]; exact o1
          · rw [List.mem_singleton.1 hS]; exact o3) fun h => by
        obtain ⟨-, -, nx, nu, h1, -⟩ := h
        have a := (h1 _ (List.mem_append_left _ (List.mem_replicate.2 ⟨by norm_num, rfl⟩))).2
        have b := (h1 _ (List.mem_append_right _ (List.mem_singleton.2 rfl))).2
        simp only [Sys.nu] at a b
        omega), Py.ok_bind, hD', Py.ok_bind, List.dropLast_concat,
      assertValueError_rejected (pwa_rejected (fun S hS => by
          rcases List.mem_append.1 hS with hS | hS
          · rw [List.eq_of_mem_replicate hS]; exact o1
          · rcases List.mem_cons.1 hS with hS | hS
            · rw [hS]; exact o1
            · rw [List.mem_singleton.1 hS]; exact o1) fun h => by
        obtain ⟨-, -, nx, nu, -, h2⟩ := h
        have a := h2 D (List.mem_append_left _ (List.mem_append_right _ (by simp)))
        have b := h2 D' (List.mem_append_right _ (by simp))
        omega), Py.ok_bind, Py.ok_bind]
    exact assertValueError_rejected (pwa_rejected (fun S hS => by
          rcases List.mem_append.1 hS with hS | hS
          · rw [List.eq_of_mem_replicate hS]; exact o1
          · rcases List.mem_cons.1 hS with hS | hS
            · rw [hS]; exact o1
            · rw [List.mem_singleton.1 hS]; exact o1) fun h => by
        obtain ⟨-, -, nx, nu, h1, h2⟩ := h
        have a := h1 _ (List.mem_append_left _ (List.mem_replicate.2 ⟨by norm_num, rfl⟩))
        have b := h2 D' (List.mem_replicate.2 ⟨by norm_num, rfl⟩)
        simp only [Sys.nx, Sys.nu] at a
        omega)
  · intro k S D hS hD
    rw [affine_ones 3 2] at hS
    cases hS
    obtain ⟨D', hD', nD⟩ := init_ones 9 5
    cases hD.symm.trans hD'
    obtain ⟨h1, -, h3⟩ := C58 (List.replicate (k + 1) (.aff ⟨onesM 3 3, onesM 3 2, full 3 1, 3, 2⟩)) (List.replicate (k + 1) D)
      (fun S hS => by rw [List.eq_of_mem_replicate hS]; exact ok_ones 3 2)
    obtain ⟨P, hP⟩ := h1.2 ⟨by simp [List.replicate_succ], by simp, 3, 2, fun S hS => by
      rw [List.eq_of_mem_replicate hS]; exact ⟨rfl, rfl⟩, fun E hE => by rw [List.eq_of_mem_replicate hE, nD]⟩
    obtain ⟨a, -, -, n, -⟩ := h3 P hP
    have a := a _ (List.mem_replicate.2 ⟨by omega, rfl⟩)
    exact ⟨P, hP, a.1.symm, a.2.symm, by rw [n]; simp⟩

/-- the objects of the last part exist -/
example : ∃ S D, AffineSystem.init (onesM 3 3) (onesM 3 2) (.d1 (full 3 1)) = .ok S ∧ Poly.init (onesM 9 5) (.d1 (full 9 1)) = .ok D := by
  obtain ⟨D, hD, -⟩ := init_ones 9 5
  exact ⟨_, D, affine_ones 3 2, hD⟩

end Verif.TestSuite
