import Verif.Model.TestSuite

/- The test of `same_rows`, /repo/pympc/test/test_geometry/test_utils.py:67-90. -/
namespace Verif.TestSuite

/-- the random numbers of one iteration of the loop: the entries of `np.random.rand(n, m)` (76), `np.random.rand(n)` (77), the list after `shuffle` (82-83), as a
permutation, and `np.random.rand(m)` (88) -/
structure RowsDraw where
  A : ℕ → ℕ → ℝ
  rowScaling : ℕ → ℝ
  order : Equiv.Perm (Fin 10)
  colScaling : ℕ → ℝ

/-- one iteration of the loop (76-90), with `n = 10` rows and `m = 5` columns.  The first call of `same_rows` normalizes the rows of `A` in place; if one of them vanishes it
becomes `nan`, but then the call returns False and the test ends there. -/
noncomputable def sameRowsRound (r : RowsDraw) : Py Unit := do
  let A : Mat ℝ := ⟨10, 5, r.A⟩
  let B : Mat ℝ := ⟨10, 5, fun i j => A.e i j * r.rowScaling i⟩
  let s ← Geom.same_rows A B
  assertTrue s
  let A : Mat ℝ := ⟨10, 5, fun i j => A.e i j / vnorm (A.row i)⟩
  let B : Mat ℝ := ⟨10, 5, fun i j => if h : i < 10 then A.e (r.order ⟨i, h⟩) j else 0⟩
  let s ← Geom.same_rows A B false
  assertTrue s
  let B : Mat ℝ := ⟨10, 5, fun i j => A.e i j * r.colScaling j⟩
  let s ← Geom.same_rows A B
  assertFalse s

/-- the loop over the iterations (73) -/
noncomputable def sameRowsRounds : List RowsDraw → Py Unit
  | [] => .ok ()
  | r :: l => do
    sameRowsRound r
    sameRowsRounds l

/-- `test_same_rows` (67-90), for the random numbers of its ten iterations -/
noncomputable def test_same_rows (draws : Fin 10 → RowsDraw) : Py Unit := sameRowsRounds (List.ofFn draws)

end Verif.TestSuite
