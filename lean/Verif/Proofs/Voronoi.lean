import Verif.Model.Voronoi
import Verif.Math.Voronoi
import Verif.Proofs.Symbolic
import Verif.Proofs.GeomUtils
import Verif.Proofs.Condense
import Verif.Proofs.Drake
import Verif.Props.PolyhedronBasic
import Verif.Props.PolyhedronSets
import Mathlib.Analysis.InnerProductSpace.PiL2

/- Lemmas on the Voronoi partition. -/
namespace Verif
open Finset
namespace Voronoi

open Spec (sqDist Closest Distinct)

/-- the point `i` of the list -/
def pt (points : List (Vec ℝ)) (i : ℕ) : Vec ℝ := points.getD i ⟨0, fun _ => 0⟩

theorem pt_mem {points : List (Vec ℝ)} {i : ℕ} (h : i < points.length) : pt points i ∈ points := by
  unfold pt
  rw [List.getD_eq_getElem _ _ h]
  exact List.getElem_mem h

theorem mem_pt {points : List (Vec ℝ)} {p : Vec ℝ} (h : p ∈ points) : ∃ i < points.length, pt points i = p := by
  obtain ⟨i, hi, rfl⟩ := List.getElem_of_mem h
  exact ⟨i, hi, by unfold pt; rw [List.getD_eq_getElem _ _ hi]⟩

theorem closest_iff {n : ℕ} {points : List (Vec ℝ)} {i : ℕ} {x : ℕ → ℝ} :
    Closest n points i x ↔ ∀ k < points.length, sqDist n x (pt points i).e ≤ sqDist n x (pt points k).e := by
  constructor
  · intro h k hk
    exact h _ (pt_mem hk)
  · intro h p hp
    obtain ⟨k, hk, rfl⟩ := mem_pt hp
    exact h k hk

/-- the row of the bisector -/
theorem bisector_run {n : ℕ} {p q : Vec ℝ} (hp : p.n = n) (hq : q.n = n) :
    bisector p q = .ok (q.sub p, (q.sub p).dot (p.add ((q.sub p).divS 2))) := by
  have k1 : np.subV q p = .ok (q.sub p) := if_pos (hq.trans hp.symm)
  have k2 : np.addV p ((q.sub p).divS 2) = .ok (p.add ((q.sub p).divS 2)) := if_pos (hp.trans hq.symm)
  have k3 : np.dotVV (q.sub p) (p.add ((q.sub p).divS 2)) = .ok _ := if_pos (hq.trans hp.symm)
  unfold bisector
  rw [k1, Py.ok_bind, k2, Py.ok_bind, k3]
  rfl

theorem bisector_mem {n : ℕ} {p q : Vec ℝ} (hq : q.n = n) (x : ℕ → ℝ) :
    (∑ j ∈ range n, (q.sub p).e j * x j ≤ (q.sub p).dot (p.add ((q.sub p).divS 2))) ↔ sqDist n x p.e ≤ sqDist n x q.e := by
  have e : sqDist n x q.e - sqDist n x p.e = 2 * ((q.sub p).dot (p.add ((q.sub p).divS 2)) - ∑ j ∈ range n, (q.sub p).e j * x j) := by
    unfold sqDist Vec.dot
    rw [show (q.sub p).n = n from hq, ← Finset.sum_sub_distrib, ← Finset.sum_sub_distrib, Finset.mul_sum]
    refine Finset.sum_congr rfl fun j _ => ?_
    show (x j - q.e j) ^ 2 - (x j - p.e j) ^ 2 = 2 * ((q.e j - p.e j) * (p.e j + (q.e j - p.e j) / 2) - (q.e j - p.e j) * x j)
    ring
  constructor <;> intro h <;> linarith

/-- the cell of a point with given neighbours -/
theorem cell_run {n : ℕ} {p : Vec ℝ} {tips : List (Vec ℝ)} (hp : p.n = n) (ht : ∀ q ∈ tips, q.n = n) (hne : tips ≠ []) :
    ∃ c, cell p tips = .ok c ∧ c.Inv n ∧ c.C.nr = 0 ∧ ∀ x, c.Mem x ↔ ∀ q ∈ tips, sqDist n x p.e ≤ sqDist n x q.e := by
  set f : Vec ℝ → Vec ℝ × ℝ := fun q => (q.sub p, (q.sub p).dot (p.add ((q.sub p).divS 2))) with hf
  have h1 : tips.mapM (bisector p) = .ok (tips.map f) := mapM_ok fun q hq => bisector_run hp (ht q hq)
  have hfst : (tips.map f).map Prod.fst = tips.map fun q => q.sub p := by simp [hf]
  obtain ⟨A, hA, hAn⟩ := vstack_ofRow_ok (l := tips.map fun q => q.sub p) (by simpa using hne) (n := n) (fun v hv => by
    obtain ⟨q, hq, rfl⟩ := List.mem_map.1 hv
    exact ht q hq)
  obtain ⟨a1, a2, a3⟩ := vstack_ofRow hA
  set b : Vec ℝ := ⟨(tips.map f).length, fun i => ((tips.map f).map Prod.snd).getD i 0⟩ with hb
  obtain ⟨-, k1, k2, k3⟩ := Props.C01 A (.d1 b) none none
  obtain ⟨c, hc⟩ := k1.2 ⟨rfl, by rw [a1]; simp [hb, NDArr.size], Or.inl ⟨rfl, rfl⟩⟩
  have hinv : c.Inv n := hAn ▸ k3 c hc (fun _ h => by cases h)
  obtain ⟨d1, d2, d3, d4, -⟩ := Props.C07 n c hinv 1e-7 (by norm_num)
  refine ⟨c.normalize, ?_, d1, ?_, fun x => ?_⟩
  · unfold cell
    rw [h1, Py.ok_bind, hfst, hA, Py.ok_bind, hc]
    rfl
  · rw [d3]
    obtain ⟨v, -, -, ⟨-, -, rfl⟩ | ⟨C', w, h2, -⟩⟩ := Poly.init_eq_ok.1 hc
    · rfl
    · cases h2
  · rw [d4]
    obtain ⟨v, hv, hm⟩ := k2 c hc
    cases hv
    rw [hm]
    have row : ∀ i (hi : i < tips.length), (∑ j ∈ range A.nc, A.e i j * x j ≤ b.e i) ↔ sqDist n x p.e ≤ sqDist n x tips[i].e := by
      intro i hi
      rw [← bisector_mem (p := p) (ht _ (List.getElem_mem hi)) x, hAn]
      have e1 : ∀ j, A.e i j = (tips[i].sub p).e j := fun j => by
        rw [a3 i (by simpa using hi) j, List.getElem_map]
      have e2 : b.e i = (tips[i].sub p).dot (p.add ((tips[i].sub p).divS 2)) := by
        show ((tips.map f).map Prod.snd).getD i 0 = _
        rw [List.getD_eq_getElem _ _ (by simpa using hi)]
        simp [hf]
      simp only [e1, e2]
    constructor
    · intro h q hq
      obtain ⟨i, hi, rfl⟩ := List.getElem_of_mem hq
      exact (row i hi).1 (h.1 i (by rw [a1]; simpa using hi))
    · intro h
      refine ⟨fun i hi => ?_, fun _ _ h => by cases h⟩
      have hi' : i < tips.length := by rw [a1] at hi; simpa using hi
      exact (row i hi').2 (h _ (List.getElem_mem hi'))

/-- without neighbours -/
theorem cell_nil (p : Vec ℝ) : cell p [] = .error .valueError := by
  unfold cell
  rw [List.mapM_nil]
  rfl

/-- the neighbours determine the cell -/
theorem neighbours {n : ℕ} {points : List (Vec ℝ)} (hd : Distinct n points) {i : ℕ} (hi : i < points.length) (N : ℕ → Prop)
    (hN : ∀ j < points.length, i ≠ j → Spec.ShareFacet n points i j → N j) (x : ℕ → ℝ)
    (hx : ∀ j < points.length, N j → sqDist n x (pt points i).e ≤ sqDist n x (pt points j).e) : Closest n points i x := by
  set E := EuclideanSpace ℝ (Fin n)
  set toE : (ℕ → ℝ) → E := fun y => WithLp.toLp 2 fun k : Fin n => y k with hE
  have hdist : ∀ y z : ℕ → ℝ, dist (toE y) (toE z) ^ 2 = sqDist n y z := fun y z => by
    rw [EuclideanSpace.dist_eq, Real.sq_sqrt (Finset.sum_nonneg fun _ _ => sq_nonneg _)]
    unfold sqDist
    rw [← Fin.sum_univ_eq_sum_range (fun j => (y j - z j) ^ 2) n]
    refine Finset.sum_congr rfl fun k _ => ?_
    show dist (y k) (z k) ^ 2 = _
    rw [Real.dist_eq, sq_abs]
  have hle : ∀ y z w : ℕ → ℝ, dist (toE y) (toE z) ≤ dist (toE y) (toE w) ↔ sqDist n y z ≤ sqDist n y w := fun y z w => by
    rw [← hdist, ← hdist, pow_le_pow_iff_left₀ dist_nonneg dist_nonneg two_ne_zero]
  set P : Fin points.length → E := fun k => toE (pt points k).e with hP
  have hinj : Function.Injective P := by
    intro k l hkl
    by_contra hne
    obtain ⟨c, hc, h⟩ := hd k k.2 l l.2 (fun h => hne (Fin.ext h))
    refine h ?_
    have := congrArg (fun v : E => v ⟨c, hc⟩) hkl
    exact this
  rw [closest_iff]
  intro k hk
  rw [← hle]
  refine Math.voronoi_neighbours P hinj ⟨i, hi⟩ (fun k => N k) (fun j hj hz => ?_) (toE x) (fun j hj => ?_) ⟨k, hk⟩
  · obtain ⟨z, hz1, hz2⟩ := hz
    set z' : ℕ → ℝ := fun c => if h : c < n then z ⟨c, h⟩ else 0 with hz'
    have ez : toE z' = z := by
      ext c
      show z' c = z c
      simp only [hz', dif_pos c.2]
    rw [← ez] at hz1 hz2
    refine hN j j.2 (fun h => hj (Fin.ext h.symm)) ⟨z', ?_, fun k hk h1 h2 => ?_⟩
    · rw [← hdist, ← hdist]
      exact congrArg (· ^ 2) hz1
    · have := hz2 ⟨k, hk⟩ (fun h => h1 (congrArg Fin.val h)) (fun h => h2 (congrArg Fin.val h))
      rw [← hdist, ← hdist, pow_lt_pow_iff_left₀ dist_nonneg dist_nonneg two_ne_zero]
      exact this
  · exact (hle _ _ _).2 (hx j j.2 hj)

end Voronoi
end Verif
