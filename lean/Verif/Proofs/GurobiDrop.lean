import Verif.Model.Gurobi
import Verif.Spec.Opt

/- The model that the Gurobi backend builds does not see entries of magnitude at most `1e-9`. -/
namespace Verif
open Spec

theorem drop_gt {ε a : ℝ} : |drop ε a| > ε ↔ |a| > ε ∨ (ε < 0) := by
  unfold drop
  split_ifs with h
  · simp [h]
  · rw [abs_zero]
    constructor
    · intro h'
      exact Or.inr h'
    · rintro (h' | h')
      · exact absurd h' h
      · exact h'

theorem drop_gt9 {a : ℝ} : |drop 1e-9 a| > 1e-9 ↔ |a| > 1e-9 := by
  rw [drop_gt]
  norm_num

theorem drop_of_gt {ε a : ℝ} (h : |a| > ε) : drop ε a = a := if_pos h

theorem drop_of_not {ε a : ℝ} (h : ¬ |a| > ε) : drop ε a = 0 := if_neg h

theorem drop_zero (ε : ℝ) : drop ε 0 = 0 := by
  unfold drop
  split_ifs <;> rfl

theorem drop_neg (ε a : ℝ) : drop ε (-a) = - drop ε a := by
  unfold drop
  rw [abs_neg]
  split_ifs <;> simp

/-- a dropped entry is zero or not tiny -/
theorem drop_noTiny (a : ℝ) : drop 1e-9 a = 0 ∨ 1e-9 < |drop 1e-9 a| := by
  by_cases h : |a| > 1e-9
  · exact Or.inr (drop_gt9.2 h)
  · exact Or.inl (drop_of_not h)

/-- an entry changes by at most `ε` -/
theorem drop_close {ε : ℝ} (hε : 0 ≤ ε) (a : ℝ) : |drop ε a - a| ≤ ε := by
  by_cases h : |a| > ε
  · rw [drop_of_gt h, sub_self, abs_zero]
    exact hε
  · rw [drop_of_not h, zero_sub, abs_neg]
    exact not_lt.1 h

namespace Grb

theorem mapM_congr' {α β : Type} {f g : α → Py β} : ∀ (l : List α), (∀ a ∈ l, f a = g a) → l.mapM f = l.mapM g
  | [], _ => rfl
  | a :: l, h => by
    rw [List.mapM_cons, List.mapM_cons, h a (by simp), mapM_congr' l fun b hb => h b (by simp [hb])]

theorem rowTerms_drop (n : ℕ) (A : Mat ℝ) (i : ℕ) : rowTerms n (dropM 1e-9 A) i 1e-9 = rowTerms n A i 1e-9 := by
  unfold rowTerms
  have hf : ((List.range (dropM 1e-9 A).nc).filter fun j => decide (|(dropM 1e-9 A).e i j| > 1e-9))
      = ((List.range A.nc).filter fun j => decide (|A.e i j| > 1e-9)) := by
    refine List.filter_congr fun j _ => ?_
    rw [decide_eq_decide]
    exact drop_gt9
  rw [hf]
  refine mapM_congr' _ fun j hj => ?_
  have hj := (List.mem_filter.1 hj).2
  rw [decide_eq_true_iff] at hj
  rw [show (dropM 1e-9 A).e i j = A.e i j from drop_of_gt hj]

theorem linear_expression_drop (A : Mat ℝ) (b : Vec ℝ) (n : ℕ) : linear_expression (dropM 1e-9 A) (dropV 1e-9 b) n = linear_expression A b n := by
  unfold linear_expression
  have h1 : ((List.range (dropM 1e-9 A).nr).mapM fun i => rowTerms n (dropM 1e-9 A) i 1e-9) = (List.range A.nr).mapM fun i => rowTerms n A i 1e-9 :=
    mapM_congr' _ fun i _ => rowTerms_drop n A i
  rw [h1]
  congr 1
  funext exprs
  refine mapM_congr' _ fun p _ => ?_
  have h2 : (if |(dropV 1e-9 b).e p.2| > 1e-9 then (dropV 1e-9 b).e p.2 else 0) = if |b.e p.2| > 1e-9 then b.e p.2 else 0 := by
    show (if |drop 1e-9 (b.e p.2)| > 1e-9 then drop 1e-9 (b.e p.2) else 0) = _
    by_cases h : |b.e p.2| > 1e-9
    · rw [if_pos (drop_gt9.2 h), if_pos h, drop_of_gt h]
    · rw [if_neg (fun h' => h (drop_gt9.1 h')), if_neg h]
  rw [h2]
  rfl

theorem quadratic_expression_drop (H : Mat ℝ) (n : ℕ) : quadratic_expression (dropM 1e-9 H) n = quadratic_expression H n := by
  unfold quadratic_expression
  have hf : (((List.range (dropM 1e-9 H).nr).flatMap fun i => (List.range (dropM 1e-9 H).nc).map fun j => (i, j)).filter fun p =>
      decide (|(dropM 1e-9 H).e p.1 p.2| > 1e-9))
      = (((List.range H.nr).flatMap fun i => (List.range H.nc).map fun j => (i, j)).filter fun p => decide (|H.e p.1 p.2| > 1e-9)) := by
    refine List.filter_congr fun p _ => ?_
    rw [decide_eq_decide]
    exact drop_gt9
  rw [hf]
  refine mapM_congr' _ fun p hp => ?_
  have hp := (List.mem_filter.1 hp).2
  rw [decide_eq_true_iff] at hp
  rw [show (dropM 1e-9 H).e p.1 p.2 = H.e p.1 p.2 from drop_of_gt hp]

/-- the model built from the data without tiny entries is the model built from the data -/
theorem build_model_drop (H : Mat ℝ) (f : Vec ℝ) (A : Mat ℝ) (b : Vec ℝ) :
    build_model (some (dropM 1e-9 H)) (dropV 1e-9 f) (dropM 1e-9 A) (dropV 1e-9 b) none none = build_model (some H) f A b none none := by
  have hb : (dropV 1e-9 b).neg = dropV 1e-9 b.neg := by
    show (⟨b.n, fun i => - drop 1e-9 (b.e i)⟩ : Vec ℝ) = ⟨b.n, fun i => drop 1e-9 (- b.e i)⟩
    simp only [drop_neg]
  have hz : (Vec.zeros 1 : Vec ℝ) = dropV 1e-9 (Vec.zeros 1) := by
    show (⟨1, fun _ => 0⟩ : Vec ℝ) = ⟨1, fun _ => drop 1e-9 0⟩
    rw [drop_zero]
  have hf : linear_expression (Mat.ofRow (dropV 1e-9 f)) (Vec.zeros 1) f.n = linear_expression (Mat.ofRow f) (Vec.zeros 1) f.n := by
    have h := linear_expression_drop (Mat.ofRow f) (Vec.zeros 1) f.n
    rw [← hz] at h
    exact h
  unfold build_model quadExprs
  simp only [hb, show (dropV 1e-9 f).n = f.n from rfl, linear_expression_drop, quadratic_expression_drop, hf]

end Grb
end Verif
