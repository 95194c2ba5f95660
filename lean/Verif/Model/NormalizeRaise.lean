import Verif.Model.Polyhedron

/- `Polyhedron.normalize` (/repo/pympc/geometry/polyhedron.py:379-401) on objects whose right-hand sides may have any number of entries (a caught
exception of `add_inequality` or `add_equality` leaves such objects, C06_false). `Model/Polyhedron` has the function for objects with as many
right-hand sides as rows. -/
namespace Verif
namespace Poly

/-- `self.A[i] = self.A[i]/r` (polyhedron.py:393, 400) -/
noncomputable def divRow (A : Mat ℝ) (i : ℕ) (r : ℝ) : Mat ℝ := ⟨A.nr, A.nc, fun k j => if k = i then A.e i j / r else A.e k j⟩

/-- `self.b[i] = self.b[i]/r` (polyhedron.py:394, 401) for an `i` in the range of `b` -/
noncomputable def divEntry (b : Vec ℝ) (i : ℕ) (r : ℝ) : Vec ℝ := ⟨b.n, fun k => if k = i then b.e i / r else b.e k⟩

/-- the loops of `normalize` (polyhedron.py:390-394, 397-401) over the given rows: the result and the arrays afterwards. The row of `A` is
assigned before `b[i]` is read, which raises `IndexError` if `b` is too short. -/
noncomputable def normalizeLoop (tol : ℝ) : List ℕ → Mat ℝ × Vec ℝ → Py Unit × (Mat ℝ × Vec ℝ)
  | [], s => (.ok (), s)
  | i :: l, s =>
    let r := vnorm (s.1.row i)
    if r > tol then
      if i < s.2.n then normalizeLoop tol l (divRow s.1 i r, divEntry s.2 i r)
      else (.error .indexError, (divRow s.1 i r, s.2))
    else normalizeLoop tol l s

/-- `normalize(tol)` (polyhedron.py:379-401): the result and the object afterwards -/
noncomputable def normalizeAny (tol : ℝ := 1e-7) : PyM Poly Unit := fun p =>
  match normalizeLoop tol (List.range p.A.nr) (p.A, p.b) with
  | (.error e, Ab) => (.error e, { p with A := Ab.1, b := Ab.2 })
  | (.ok _, Ab) =>
    let Cd := normalizeLoop tol (List.range p.C.nr) (p.C, p.d)
    (Cd.1, { p with A := Ab.1, b := Ab.2, C := Cd.2.1, d := Cd.2.2 })

end Poly
end Verif
