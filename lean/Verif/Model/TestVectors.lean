import Verif.Model.TestSuite

/- The test of `same_vectors`, /repo/pympc/test/test_geometry/test_utils.py:93-113. -/
namespace Verif.TestSuite

/-- the random numbers for one list: the entries of the vectors (102, 109) and the list after `shuffle` (103-104, 110-111), as a permutation -/
structure VecDraw where
  v : Fin 100 → ℕ → ℝ
  order : Equiv.Perm (Fin 100)

/-- one iteration of the loop (102-106), with `N = 100` vectors with `n = 10` entries -/
noncomputable def sameVectorsRound (r : VecDraw) : Py Unit := do
  let v_list := List.ofFn fun j => NDArr.d1 ⟨10, r.v j⟩
  let u_list := List.ofFn fun j => NDArr.d1 ⟨10, r.v (r.order j)⟩
  let s ← Geom.same_vectors v_list u_list
  assertTrue s

/-- the loop over the iterations (99) -/
noncomputable def sameVectorsRounds : List VecDraw → Py Unit
  | [] => .ok ()
  | r :: l => do
    sameVectorsRound r
    sameVectorsRounds l

/-- `test_same_vectors` (93-113), for the random numbers of its ten iterations and of the last lists, which are of arrays with one column -/
noncomputable def test_same_vectors (draws : Fin 10 → VecDraw) (last : VecDraw) : Py Unit := do
  sameVectorsRounds (List.ofFn draws)
  let v_list := List.ofFn fun j => NDArr.d2 ⟨10, 1, fun i _ => last.v j i⟩
  let u_list := List.ofFn fun j => NDArr.d2 ⟨10, 1, fun i _ => last.v (last.order j) i⟩
  assertValueError (Geom.same_vectors v_list u_list)

end Verif.TestSuite
