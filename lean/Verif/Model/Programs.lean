import Verif.Model.Gurobi

/- Model of `/repo/pympc/optimization/programs.py`. -/
namespace Verif.Programs

/-- `linear_program` (programs.py:9-55).  `lp_drake` is not bound, because line 7 is commented out. -/
noncomputable def linear_program (L : Lib) (G : Gurobi) (f : Vec ℝ) (A : Mat ℝ) (b : Vec ℝ)
    (C : Option (Mat ℝ) := none) (d : Option (Vec ℝ) := none) (solver : String := "pnnls") : Py Sol :=
  if solver = "pnnls" then Pnnls.linear_program L f A b C d
  else if solver = "gurobi" then Grb.linear_program G f A b C d
  else if solver = "drake" then .error .nameError
  else .error .valueError

/-- `quadratic_program` (programs.py:57-105) -/
noncomputable def quadratic_program (L : Lib) (G : Gurobi) (H : Mat ℝ) (f : Vec ℝ) (A : Mat ℝ)
    (b : Vec ℝ) (C : Option (Mat ℝ) := none) (d : Option (Vec ℝ) := none)
    (solver : String := "pnnls") : Py Sol :=
  if solver = "pnnls" then Pnnls.quadratic_program L H f A b C d
  else if solver = "gurobi" then Grb.quadratic_program G H f A b C d
  else if solver = "drake" then .error .nameError
  else .error .valueError

/-- `mixed_integer_quadratic_program` (programs.py:107-150) -/
noncomputable def mixed_integer_quadratic_program (G : Gurobi) (nc : ℕ) (H : Mat ℝ) (f : Vec ℝ)
    (A : Mat ℝ) (b : Vec ℝ) (C : Option (Mat ℝ) := none) (d : Option (Vec ℝ) := none)
    (solver : String := "gurobi") : Py Grb.MSol :=
  if solver = "gurobi" then Grb.mixed_integer_quadratic_program G nc H f A b C d
  else if solver = "drake" then .error .nameError
  else .error .valueError

end Verif.Programs
