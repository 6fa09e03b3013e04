import Verif.Spec.Basic
import Verif.Model.Util
import Mathlib.Tactic.Linarith
import Mathlib.Tactic.Ring
import Mathlib.Algebra.BigOperators.Group.List.Basic
import Mathlib.Data.List.Perm.Basic

/-! # Lemmas about costs, demands, routes and giant tours -/

namespace Verif
open Spec

/-! ## cost and demand -/

@[simp] theorem cost_nil (D : ℕ → ℕ → ℚ) : cost D [] = 0 := rfl
@[simp] theorem cost_single (D : ℕ → ℕ → ℚ) (a : ℕ) : cost D [a] = 0 := rfl
@[simp] theorem cost_cons_cons (D : ℕ → ℕ → ℚ) (a b : ℕ) (t : List ℕ) :
    cost D (a :: b :: t) = D a b + cost D (b :: t) := rfl

theorem cost_append_cons (D : ℕ → ℕ → ℚ) (l : List ℕ) (a : ℕ) (r : List ℕ) :
    cost D (l ++ a :: r) = cost D (l ++ [a]) + cost D (a :: r) := by
  induction l with
  | nil => simp
  | cons b t ih =>
    cases t with
    | nil => simp
    | cons c t => simp at ih ⊢; rw [ih]; ring

theorem cost_concat (D : ℕ → ℕ → ℚ) (l : List ℕ) (a b : ℕ) :
    cost D (l ++ [a, b]) = cost D (l ++ [a]) + D a b := by
  rw [cost_append_cons]; simp

theorem cost_append_two (D : ℕ → ℕ → ℚ) (l : List ℕ) (a b : ℕ) (r : List ℕ) :
    cost D (l ++ a :: b :: r) = cost D (l ++ [a]) + D a b + cost D (b :: r) := by
  rw [cost_append_cons]; simp; ring

theorem cost_reverse {D : ℕ → ℕ → ℚ} (h : Symm D) (l : List ℕ) :
    cost D l.reverse = cost D l := by
  induction l with
  | nil => simp
  | cons a t ih =>
    cases t with
    | nil => simp
    | cons b t =>
      simp only [List.reverse_cons, List.append_assoc, List.singleton_append] at ih ⊢
      have : t.reverse ++ ([b] ++ [a]) = t.reverse ++ [b, a] := rfl
      rw [cost_concat, ih, h b a]; simp; ring

@[simp] theorem demand_nil (d : ℕ → ℚ) : demand d [] = 0 := rfl
@[simp] theorem demand_cons (d : ℕ → ℚ) (a : ℕ) (t : List ℕ) :
    demand d (a :: t) = d a + demand d t := rfl

@[simp] theorem demand_append (d : ℕ → ℚ) (l r : List ℕ) :
    demand d (l ++ r) = demand d l + demand d r := by
  induction l with
  | nil => simp
  | cons a t ih => simp [ih]; ring

theorem demand_eq_sum (d : ℕ → ℚ) (l : List ℕ) : demand d l = (l.map d).sum := by
  induction l with
  | nil => simp
  | cons a t ih => simp [ih]

theorem demand_perm (d : ℕ → ℚ) {l r : List ℕ} (h : l.Perm r) : demand d l = demand d r := by
  rw [demand_eq_sum, demand_eq_sum]; exact (h.map d).sum_eq

@[simp] theorem demand_reverse (d : ℕ → ℚ) (l : List ℕ) : demand d l.reverse = demand d l :=
  demand_perm d (List.reverse_perm l)

theorem objf_eq_cost (sol : List ℕ) (D : ℕ → ℕ → ℚ) : objf sol D = cost D sol := by
  induction sol with
  | nil => simp [objf]
  | cons a t ih =>
    cases t with
    | nil => simp [objf]
    | cons b t => simp [objf] at ih ⊢; rw [ih]

/-! ## blocks -/

/-- Induction over the depot visits of a list. -/
theorem zero_split_ind {P : List ℕ → Prop} (h0 : ∀ g : List ℕ, (∀ x ∈ g, x ≠ 0) → P g)
    (h1 : ∀ g r : List ℕ, (∀ x ∈ g, x ≠ 0) → P r → P (g ++ 0 :: r)) : ∀ l, P l := by
  have key : ∀ l g : List ℕ, (∀ x ∈ g, x ≠ 0) → P (g ++ l) := by
    intro l
    induction l with
    | nil => intro g hg; simpa using h0 g hg
    | cons a t ih =>
      intro g hg
      by_cases ha : a = 0
      · subst ha; exact h1 g t hg (by simpa using ih [] (by simp))
      · have := ih (g ++ [a]) (by
          intro x hx; simp at hx; rcases hx with hx | hx
          · exact hg x hx
          · subst hx; exact ha)
        simpa using this
  intro l; simpa using key l [] (by simp)

@[simp] theorem blocks_nil : blocks [] = [] := rfl
@[simp] theorem blocks_zero (t : List ℕ) : blocks (0 :: t) = blocks t := by simp [blocks]

theorem blocks_zerofree : ∀ g : List ℕ, (∀ x ∈ g, x ≠ 0) → blocks g = if g = [] then [] else [g]
  | [], _ => by simp
  | [a], h => by
    have : a ≠ 0 := h a (by simp)
    simp [blocks, this]
  | a :: b :: t, h => by
    have ha : a ≠ 0 := h a (by simp)
    have hb : b ≠ 0 := h b (by simp)
    have ih := blocks_zerofree (b :: t) (fun x hx => h x (List.mem_cons_of_mem _ hx))
    obtain ⟨m, rfl⟩ := Nat.exists_eq_succ_of_ne_zero hb
    rw [blocks, if_neg ha, ih]; simp

theorem blocks_append_zero (l r : List ℕ) : blocks (l ++ 0 :: r) = blocks l ++ blocks r := by
  induction l with
  | nil => simp
  | cons a t ih =>
    by_cases ha : a = 0
    · subst ha; simp [ih]
    · cases t with
      | nil => simp [blocks, ha]
      | cons b t =>
        simp only [List.cons_append] at ih ⊢
        rw [blocks, if_neg ha, ih]
        conv_rhs => rw [blocks, if_neg ha]
        cases b with
        | zero => simp
        | succ m =>
          have hne : blocks ((m + 1) :: t) ≠ [] := by
            rw [blocks]; simp; split <;> simp
          obtain ⟨c, cs, hc⟩ := List.exists_cons_of_ne_nil hne
          simp [hc]

theorem blocks_block_zero (g r : List ℕ) (hg : ∀ x ∈ g, x ≠ 0) :
    blocks (g ++ 0 :: r) = if g = [] then blocks r else g :: blocks r := by
  rw [blocks_append_zero, blocks_zerofree g hg]; split <;> simp

theorem blocks_flatten (l : List ℕ) : (blocks l).flatten = customers l := by
  induction l using zero_split_ind with
  | h0 g hg =>
    rw [blocks_zerofree g hg]
    have : customers g = g := List.filter_eq_self.2 (by simpa using hg)
    rw [this]; split <;> simp [*]
  | h1 g r hg ih =>
    rw [blocks_append_zero, List.flatten_append, ih, blocks_zerofree g hg]
    have : customers g = g := List.filter_eq_self.2 (by simpa using hg)
    have h2 : customers (g ++ 0 :: r) = customers g ++ customers r := by
      simp [customers]
    rw [h2, this]; split <;> simp [*]

theorem mem_blocks (l : List ℕ) : ∀ b ∈ blocks l, b ≠ [] ∧ ∀ x ∈ b, x ≠ 0 := by
  induction l using zero_split_ind with
  | h0 g hg =>
    rw [blocks_zerofree g hg]; split
    · simp
    · intro b hb; simp at hb; subst hb; exact ⟨by assumption, hg⟩
  | h1 g r hg ih =>
    rw [blocks_append_zero, blocks_zerofree g hg]
    intro b hb
    simp at hb
    rcases hb with hb | hb
    · obtain ⟨h1, rfl⟩ := hb; exact ⟨h1, hg⟩
    · exact ih b hb

@[simp] theorem customers_append (l r : List ℕ) :
    customers (l ++ r) = customers l ++ customers r := by simp [customers]

@[simp] theorem customers_nil : customers [] = [] := rfl
@[simp] theorem customers_zero (t : List ℕ) : customers (0 :: t) = customers t := by
  simp [customers]

theorem customers_of_ne {n : ℕ} (h : n ≠ 0) (t : List ℕ) :
    customers (n :: t) = n :: customers t := by simp [customers, h]

theorem customers_zerofree (g : List ℕ) (hg : ∀ x ∈ g, x ≠ 0) : customers g = g :=
  List.filter_eq_self.2 (by simpa using hg)

theorem blocks_eq_nil_iff (l : List ℕ) : blocks l = [] ↔ ∀ x ∈ l, x = 0 := by
  constructor
  · intro h x hx
    by_contra hne
    have : x ∈ customers l := by simp [customers, hx, hne]
    rw [← blocks_flatten, h] at this
    simp at this
  · intro h
    induction l with
    | nil => rfl
    | cons a t ih =>
      have := h a (by simp); subst this
      simp [ih (fun x hx => h x (List.mem_cons_of_mem _ hx))]

/-- The cost of a tour over the depot is the sum of the costs of its routes. -/
theorem cost_wrap_eq_sum {D : ℕ → ℕ → ℚ} (h00 : D 0 0 = 0) (l : List ℕ) :
    cost D (wrap l) = ((blocks l).map (fun b => cost D (wrap b))).sum := by
  induction l using zero_split_ind with
  | h0 g hg =>
    rw [blocks_zerofree g hg]; split
    · subst_vars; simp [wrap, h00]
    · simp
  | h1 g r hg ih =>
    have e : wrap (g ++ 0 :: r) = (0 :: g) ++ 0 :: (r ++ [0]) := by simp [wrap]
    rw [blocks_append_zero, e, cost_append_cons, List.map_append, List.sum_append, ← ih]
    have e2 : (0 :: g) ++ [0] = wrap g := rfl
    rw [e2]; congr 1
    rw [blocks_zerofree g hg]; split
    · subst_vars; simp [wrap, h00]
    · simp

/-- Lists with depot at both ends. -/
theorem depotEnds_cases {sol : List ℕ} (h : DepotEnds sol) : sol = [0] ∨ ∃ m, sol = wrap m := by
  obtain ⟨h1, h2⟩ := h
  cases sol with
  | nil => simp at h1
  | cons a t =>
    simp at h1; subst h1
    rcases List.eq_nil_or_concat t with rfl | ⟨m, b, rfl⟩
    · left; rfl
    · right
      refine ⟨m, ?_⟩
      have : b = 0 := by simpa [List.getLast?_cons] using h2
      subst this; simp [wrap]

@[simp] theorem blocks_wrap (m : List ℕ) : blocks (wrap m) = blocks m := by
  simp [wrap, blocks_append_zero]

@[simp] theorem customers_wrap (m : List ℕ) : customers (wrap m) = customers m := by
  simp [wrap]

theorem depotEnds_wrap (m : List ℕ) : DepotEnds (wrap m) := by
  constructor <;> simp [wrap, List.getLast?_cons]

/-! ## pyGroupby and the conversions -/

theorem pyGroupby_zero_blocks (l : List ℕ) :
    ((pyGroupby (fun z => decide (z = 0)) l).filter (fun xr => !xr.1)).map (·.2) = blocks l ∧
    (∀ k g rest, pyGroupby (fun z => decide (z = 0)) l = (k, g) :: rest →
      ∃ a t, l = a :: t ∧ k = decide (a = 0)) ∧
    (pyGroupby (fun z => decide (z = 0)) l = [] → l = []) := by
  induction l with
  | nil => simp [pyGroupby]
  | cons a t ih =>
    obtain ⟨ih1, ih2, ih3⟩ := ih
    rw [pyGroupby]
    generalize hG : pyGroupby (fun z => decide (z = 0)) t = G at *
    cases G with
    | nil =>
      have ht : t = [] := ih3 rfl
      subst ht
      by_cases ha : a = 0 <;> simp [ha, blocks]
    | cons kg rest =>
      obtain ⟨k, g⟩ := kg
      obtain ⟨b, t', rfl, hk⟩ := ih2 k g rest rfl
      refine ⟨?_, ?_, ?_⟩
      · by_cases ha : a = 0
        · subst ha
          rw [blocks_zero, ← ih1]
          by_cases hb : b = 0
          · subst hb; simp [hk]
          · simp [hk, hb]
        · rw [blocks, if_neg ha]
          by_cases hb : b = 0
          · subst hb
            simp only [hk] at ih1 ⊢
            simp [ha] at ih1 ⊢
            rw [ih1]
          · obtain ⟨m, rfl⟩ := Nat.exists_eq_succ_of_ne_zero hb
            simp only [hk] at ih1 ⊢
            simp [ha] at ih1 ⊢
            rw [← ih1]
      · intro k' g' rest' h
        simp only at h
        split at h
        · rename_i hk'
          simp at h
          exact ⟨a, _, rfl, by rw [← h.1.1, ← hk']⟩
        · simp at h
          exact ⟨a, _, rfl, by rw [← h.1.1]⟩
      · intro h
        simp only at h
        split at h <;> simp at h

theorem sol2routes_eq (sol : List ℕ) (h : 2 < sol.length) :
    sol2routes sol = (blocks sol).map wrap := by
  rw [sol2routes, if_neg (by omega), ← (pyGroupby_zero_blocks sol).1, List.map_map]
  congr 1

theorem sol2routes_depotEnds (sol : List ℕ) (h : DepotEnds sol) :
    sol2routes sol = (blocks sol).map wrap := by
  by_cases hl : 2 < sol.length
  · exact sol2routes_eq sol hl
  · rcases depotEnds_cases h with rfl | ⟨m, rfl⟩
    · rfl
    · have : m = [] := by
        simp [wrap] at hl; exact hl
      subst this; rfl

theorem tour_ne_nil (bs : List (List ℕ)) : tour bs ≠ [] := by cases bs <;> simp [tour]

theorem tour_getLast (bs : List (List ℕ)) : (tour bs).getLast? = some 0 := by
  induction bs with
  | nil => rfl
  | cons b t ih =>
    rw [tour, List.getLast?_cons]
    simp [List.getLast?_append, ih]

theorem tour_head (bs : List (List ℕ)) : (tour bs).head? = some 0 := by cases bs <;> rfl

theorem depotEnds_tour (bs : List (List ℕ)) : DepotEnds (tour bs) := ⟨tour_head bs, tour_getLast bs⟩

theorem tour_eq_cons (bs : List (List ℕ)) : ∃ t, tour bs = 0 :: t := by
  cases bs with
  | nil => exact ⟨[], rfl⟩
  | cons b t => exact ⟨_, rfl⟩

theorem tour_append (as bs : List (List ℕ)) :
    tour (as ++ bs) = tour as ++ (tour bs).tail := by
  induction as with
  | nil => obtain ⟨t, ht⟩ := tour_eq_cons bs; simp [tour, ht]
  | cons a t ih => simp [tour, ih]

theorem blocks_tour (bs : List (List ℕ)) : blocks (tour bs) = bs.flatMap blocks := by
  induction bs with
  | nil => rfl
  | cons b t ih =>
    obtain ⟨r, hr⟩ := tour_eq_cons t
    rw [tour, blocks_zero, hr, blocks_append_zero, List.flatMap_cons, ← ih, hr, blocks_zero]

theorem blocks_tour_of_routes (bs : List (List ℕ)) (h : ∀ b ∈ bs, b ≠ [] ∧ ∀ x ∈ b, x ≠ 0) :
    blocks (tour bs) = bs := by
  rw [blocks_tour]
  induction bs with
  | nil => rfl
  | cons b t ih =>
    have hb := h b (by simp)
    rw [List.flatMap_cons, ih (fun c hc => h c (List.mem_cons_of_mem _ hc)),
      blocks_zerofree b hb.2, if_neg hb.1]
    rfl

theorem customers_tour (bs : List (List ℕ)) : customers (tour bs) = bs.flatMap customers := by
  induction bs with
  | nil => rfl
  | cons b t ih => simp [tour, ih]

end Verif
