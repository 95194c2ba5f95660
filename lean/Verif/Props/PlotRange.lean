import Verif.Props.PlotTime
import Verif.Proofs.GeomUtils

/- The plots of trajectories raise `IndexError` when a selected coordinate does not exist (`/repo/pympc/plot.py`). -/
namespace Verif
open Finset
namespace Plot

/-- a computation that raises nothing but `IndexError` -/
def IdxOnly {α : Type} (c : Py α) : Prop := ∀ e, c = .error e → e = .indexError

theorem IdxOnly.bind {α β : Type} {c : Py α} {f : α → Py β} (h : IdxOnly c) (hf : ∀ a, c = .ok a → IdxOnly (f a)) : IdxOnly (c >>= f) := by
  intro e he
  cases hc : c with
  | error e' =>
    rw [hc] at he
    cases he
    exact h _ hc
  | ok a =>
    rw [hc] at he
    exact hf a hc e he

theorem idxOnly_ok {α : Type} (a : α) : IdxOnly (.ok a : Py α) := fun e he => by cases he

theorem idxOnly_mapM {α β : Type} {f : α → Py β} {l : List α} (h : ∀ a ∈ l, IdxOnly (f a)) : IdxOnly (l.mapM f) := by
  induction l with
  | nil => exact fun e he => by cases he
  | cons a l ih =>
    rw [List.mapM_cons]
    exact (h a (by simp)).bind fun b _ => (ih fun a' ha' => h a' (List.mem_cons_of_mem _ ha')).bind fun bs _ => idxOnly_ok _

theorem idxOnly_coord (v : Vec ℝ) (i : ℕ) : IdxOnly (coord v i) := by
  intro e he
  unfold coord at he
  split_ifs at he
  cases he
  rfl

theorem idxOnly_listGet {α : Type} (l : List α) (i : ℕ) : IdxOnly (np.listGet l i) := by
  intro e he
  unfold np.listGet at he
  split at he
  · cases he
  · cases he; rfl

theorem coord_lt {v : Vec ℝ} {i : ℕ} {a : ℝ} (h : coord v i = .ok a) : i < v.n := by
  unfold coord at h
  by_contra hn
  rw [if_neg hn] at h
  cases h

theorem listGet_inv {α : Type} {l : List α} {i : ℕ} {a : α} (h : np.listGet l i = .ok a) : l[i]? = some a := by
  unfold np.listGet at h
  split at h
  · cases h; assumption
  · cases h

theorem idxOnly_segment (x : List (Vec ℝ)) (i j t : ℕ) (label : Option String) : IdxOnly (segmentOf x i j t label) := by
  unfold segmentOf
  exact (idxOnly_listGet _ _).bind fun a _ => (idxOnly_listGet _ _).bind fun b _ => (idxOnly_coord _ _).bind fun _ _ => (idxOnly_coord _ _).bind fun _ _ =>
    (idxOnly_coord _ _).bind fun _ _ => (idxOnly_coord _ _).bind fun _ _ => idxOnly_ok _

theorem idxOnly_trajectory (x : List (Vec ℝ)) (i j : ℕ) (text : Bool) (label : Option String) : IdxOnly (plot_state_space_trajectory x [i, j] text label) := by
  unfold plot_state_space_trajectory
  refine (idxOnly_mapM fun t _ => ?_).bind fun segs _ => IdxOnly.bind ?_ fun texts _ => (idxOnly_listGet _ _).bind fun a _ => (idxOnly_coord _ _).bind fun _ _ =>
    (idxOnly_coord _ _).bind fun _ _ => idxOnly_ok _
  · unfold segmentCmds
    refine (idxOnly_segment _ _ _ _ _).bind fun s _ => ?_
    split_ifs
    · exact (idxOnly_segment _ _ _ _ _).bind fun s _ => idxOnly_ok _
    · exact idxOnly_ok _
  · unfold textCmds
    split_ifs
    · refine idxOnly_mapM fun t _ => ?_
      unfold textCmd
      exact (idxOnly_listGet _ _).bind fun a _ => (idxOnly_coord _ _).bind fun _ _ => (idxOnly_coord _ _).bind fun _ _ => idxOnly_ok _
    · exact idxOnly_ok _

end Plot

namespace Props
open Plot

/-- C111, the coordinates that do not exist: if a state has no coordinate `i` or no coordinate `j`, or (with texts) fewer than two coordinates, then `plot_state_space_trajectory` raises
`IndexError`. -/
theorem C111_range (x : List (Vec ℝ)) (i j : ℕ) (text : Bool) (label : Option String) (h : ∃ v ∈ x, v.n ≤ i ∨ v.n ≤ j ∨ (text = true ∧ v.n < 2)) :
    plot_state_space_trajectory x [i, j] text label = .error .indexError := by
  cases hr : plot_state_space_trajectory x [i, j] text label with
  | error e => rw [idxOnly_trajectory x i j text label e hr]
  | ok cmds =>
    exfalso
    unfold plot_state_space_trajectory at hr
    obtain ⟨segs, h1, hr⟩ := Py.bind_eq_ok hr
    obtain ⟨texts, h2, hr⟩ := Py.bind_eq_ok hr
    obtain ⟨x0, h3, hr⟩ := Py.bind_eq_ok hr
    obtain ⟨a, h4, hr⟩ := Py.bind_eq_ok hr
    obtain ⟨b, h5, hr⟩ := Py.bind_eq_ok hr
    obtain ⟨v, hv, hvn⟩ := h
    obtain ⟨t, ht, rfl⟩ := List.getElem_of_mem hv
    have hx : x[t]? = some x[t] := List.getElem?_eq_getElem ht
    have hij : i < x[t].n ∧ j < x[t].n := by
      rcases Nat.eq_zero_or_pos t with rfl | hpos
      · have e := listGet_inv h3
        rw [hx] at e
        obtain rfl := Option.some.inj e
        exact ⟨coord_lt h4, coord_lt h5⟩
      · obtain ⟨l1, l2⟩ := mapM_ok_iff h1
        have hlt : t - 1 < (List.range (x.length - 1)).length := by rw [List.length_range]; omega
        have hs := l2 (t - 1) hlt (by rw [l1]; exact hlt)
        unfold segmentCmds at hs
        obtain ⟨s, hs, -⟩ := Py.bind_eq_ok hs
        unfold segmentOf at hs
        obtain ⟨a', k1, hs⟩ := Py.bind_eq_ok hs
        obtain ⟨b', k2, hs⟩ := Py.bind_eq_ok hs
        obtain ⟨a1, -, hs⟩ := Py.bind_eq_ok hs
        obtain ⟨b1, k3, hs⟩ := Py.bind_eq_ok hs
        obtain ⟨a2, -, hs⟩ := Py.bind_eq_ok hs
        obtain ⟨b2, k4, hs⟩ := Py.bind_eq_ok hs
        have e := listGet_inv k2
        rw [List.getElem_range, Nat.sub_add_cancel hpos, hx] at e
        obtain rfl := Option.some.inj e
        exact ⟨coord_lt k3, coord_lt k4⟩
    rcases hvn with hvn | hvn | ⟨rfl, hvn⟩
    · omega
    · omega
    · unfold textCmds at h2
      rw [if_pos rfl] at h2
      obtain ⟨l1, l2⟩ := mapM_ok_iff h2
      have hlt : t < (List.range x.length).length := by rw [List.length_range]; omega
      have hs := l2 t hlt (by rw [l1]; exact hlt)
      unfold textCmd at hs
      obtain ⟨a', k1, hs⟩ := Py.bind_eq_ok hs
      obtain ⟨a1, -, hs⟩ := Py.bind_eq_ok hs
      obtain ⟨a2, k2, hs⟩ := Py.bind_eq_ok hs
      have e := listGet_inv k1
      rw [List.getElem_range, hx] at e
      obtain rfl := Option.some.inj e
      have := coord_lt k2
      omega

/-- coordinate 2 of a state with two coordinates, for instance -/
example : plot_state_space_trajectory [⟨2, fun _ => 0⟩] [0, 2] = .error .indexError := C111_range _ _ _ _ _ ⟨⟨2, fun _ => 0⟩, by simp, .inr (.inl (by norm_num))⟩

/-- C112, C113, the coordinates that do not exist: if an input, a state or a bound is shorter than the first input or state, then `plot_input_sequence` and `plot_state_trajectory` raise
`IndexError`. -/
theorem C112_range (u : List (Vec ℝ)) (h : ℝ) (bounds : Option (List (Vec ℝ))) (hb : bounds ≠ some []) (u0 : Vec ℝ) (h0 : u[0]? = some u0)
    (hv : (∃ v ∈ u, v.n < u0.n) ∨ ∃ b ∈ bounds.getD [], b.n < u0.n) :
    plot_input_sequence u h bounds = .error .indexError ∧ plot_state_trajectory u h bounds = .error .indexError := by
  have hstep : ∀ (xs ys : List ℝ) (s : String), xs.length = ys.length → IdxOnly (stepCmd xs ys s) := fun xs ys s hl e he => by
    unfold stepCmd at he
    rw [if_pos hl] at he
    cases he
  have hplot : ∀ (xs ys : List ℝ) (s : String), xs.length = ys.length → IdxOnly (plotCmd xs ys s) := fun xs ys s hl e he => by
    unfold plotCmd at he
    rw [if_pos hl] at he
    cases he
  have hbc : ∀ t i, IdxOnly (boundCmds t i bounds) := by
    intro t i
    unfold boundCmds
    exact idxOnly_mapM fun b _ => (idxOnly_coord _ _).bind fun _ _ => hstep _ _ _ (by simp)
  have hlc : ∀ i a b, IdxOnly (legendCmds i bounds a b) := by
    intro i a b e he
    unfold legendCmds at he
    split_ifs at he
    split at he
    · cases he
    · exact absurd rfl hb
    · cases he
  have hbounds : ∀ t i cmds, boundCmds t i bounds = .ok cmds → ∀ b ∈ bounds.getD [], i < b.n := by
    intro t i cmds hc b hbm
    unfold boundCmds at hc
    obtain ⟨l1, l2⟩ := mapM_ok_iff hc
    obtain ⟨k, hk, rfl⟩ := List.getElem_of_mem hbm
    obtain ⟨c, hcc, -⟩ := Py.bind_eq_ok (l2 k hk (by rw [l1]; exact hk))
    exact coord_lt hcc
  have hcol : ∀ i l, (u.mapM fun v => coord v i) = .ok l → ∀ v ∈ u, i < v.n := by
    intro i l hl v hvm
    obtain ⟨l1, l2⟩ := mapM_ok_iff hl
    obtain ⟨k, hk, rfl⟩ := List.getElem_of_mem hvm
    exact coord_lt (l2 k hk (by rw [l1]; exact hk))
  -- the panel of the last coordinate that is missing
  obtain ⟨i, hi, hmiss⟩ : ∃ i < u0.n, ¬ ((∀ v ∈ u, i < v.n) ∧ ∀ b ∈ bounds.getD [], i < b.n) := by
    rcases hv with ⟨v, v1, v2⟩ | ⟨b, b1, b2⟩
    · exact ⟨v.n, v2, fun h => lt_irrefl _ (h.1 v v1)⟩
    · exact ⟨b.n, b2, fun h => lt_irrefl _ (h.2 b b1)⟩
  have hlen : ∀ i l, (u.mapM fun v => coord v i) = .ok l → l.length = u.length := fun i l hl => (mapM_ok_iff hl).1
  constructor
  · cases hr : plot_input_sequence u h bounds with
    | error e =>
      congr 1
      refine (show IdxOnly (plot_input_sequence u h bounds) from ?_) e hr
      unfold plot_input_sequence
      refine (idxOnly_listGet _ _).bind fun u1 _ => (idxOnly_mapM fun k _ => ?_).bind fun _ _ => idxOnly_ok _
      unfold inputPanel
      exact (idxOnly_mapM fun v _ => idxOnly_coord _ _).bind fun l hl => (idxOnly_listGet _ _).bind fun a _ =>
        (hstep _ _ _ (by rw [linspace_length, List.length_cons, hlen k l hl])).bind fun _ _ => (hbc _ _).bind fun _ _ => (hlc _ _ _).bind fun _ _ => idxOnly_ok _
    | ok cmds =>
      exfalso
      unfold plot_input_sequence at hr
      rw [listGet_ok h0, Py.ok_bind] at hr
      obtain ⟨ps, h1, -⟩ := Py.bind_eq_ok hr
      obtain ⟨l1, l2⟩ := mapM_ok_iff h1
      have hlt : i < (List.range u0.n).length := by rw [List.length_range]; omega
      have hp := l2 i hlt (by rw [l1]; exact hlt)
      rw [List.getElem_range] at hp
      unfold inputPanel at hp
      obtain ⟨l, k1, hp⟩ := Py.bind_eq_ok hp
      obtain ⟨a, -, hp⟩ := Py.bind_eq_ok hp
      obtain ⟨ln, -, hp⟩ := Py.bind_eq_ok hp
      obtain ⟨bs, k2, -⟩ := Py.bind_eq_ok hp
      exact hmiss ⟨hcol i l k1, hbounds _ i bs k2⟩
  · cases hr : plot_state_trajectory u h bounds with
    | error e =>
      congr 1
      refine (show IdxOnly (plot_state_trajectory u h bounds) from ?_) e hr
      unfold plot_state_trajectory
      refine (idxOnly_listGet _ _).bind fun u1 _ => (idxOnly_mapM fun k _ => ?_).bind fun _ _ => idxOnly_ok _
      unfold statePanel
      exact (idxOnly_mapM fun v _ => idxOnly_coord _ _).bind fun l hl =>
        (hplot _ _ _ (by rw [linspace_length, hlen k l hl])).bind fun _ _ => (hbc _ _).bind fun _ _ => (hlc _ _ _).bind fun _ _ => idxOnly_ok _
    | ok cmds =>
      exfalso
      unfold plot_state_trajectory at hr
      rw [listGet_ok h0, Py.ok_bind] at hr
      obtain ⟨ps, h1, -⟩ := Py.bind_eq_ok hr
      obtain ⟨l1, l2⟩ := mapM_ok_iff h1
      have hlt : i < (List.range u0.n).length := by rw [List.length_range]; omega
      have hp := l2 i hlt (by rw [l1]; exact hlt)
      rw [List.getElem_range] at hp
      unfold statePanel at hp
      obtain ⟨l, k1, hp⟩ := Py.bind_eq_ok hp
      obtain ⟨ln, -, hp⟩ := Py.bind_eq_ok hp
      obtain ⟨bs, k2, -⟩ := Py.bind_eq_ok hp
      exact hmiss ⟨hcol i l k1, hbounds _ i bs k2⟩

/-- inputs with two components and a scalar bound, for instance -/
example (h : ℝ) : plot_input_sequence [⟨2, fun _ => 0⟩] h (some [⟨1, fun _ => 1⟩]) = .error .indexError :=
  (C112_range _ h _ (by simp) ⟨2, fun _ => 0⟩ rfl (.inr ⟨⟨1, fun _ => 1⟩, by simp, by norm_num⟩)).1

end Props
end Verif
