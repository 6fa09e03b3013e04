import Verif.Spec.Construct
import Verif.Lemmas.ParallelSavings

/-! # Solutions made of routes -/

namespace Verif

open Spec

theorem chain_of_nodup {l : List ℕ} (h : (customers l).Nodup) : l.IsChain (fun a b => a = b → a = 0) := by
  induction l with
  | nil => exact List.IsChain.nil
  | cons a t ih =>
    cases t with
    | nil => exact List.IsChain.singleton a
    | cons b t =>
      have hsub : (customers (b :: t)).Sublist (customers (a :: b :: t)) :=
        (List.sublist_cons_self a (b :: t)).filter _
      refine List.IsChain.cons_cons ?_ (ih (h.sublist hsub))
      rintro rfl
      by_contra ha
      simp [customers, ha] at h

theorem customers_flatten {us : List (List ℕ)} (h : ∀ u ∈ us, u ≠ [] ∧ ∀ x ∈ u, x ≠ 0) :
    customers (tour us) = us.flatten := by
  rw [customers_tour, List.flatMap_def]
  congr 1
  conv_rhs => rw [← List.map_id us]
  refine List.map_congr_left fun u hu => ?_
  exact List.filter_eq_self.2 fun x hx => by simpa using (h u hu).2 x hx

/-- Routes that serve all the customers make a solution. -/
theorem solves_tour {N : ℕ} {D : ℕ → ℕ → ℚ} {d : ℕ → ℚ} {C L : Option ℚ} {us : List (List ℕ)}
    (hp : us.flatten.Perm (List.range' 1 (N - 1))) (hne : [] ∉ us) (hok : ∀ u ∈ us, RouteOk D d C L u) :
    Solves N D d C L (tour us) ∧ Feasible D d C L (tour us) ∧ without_empty_routes (tour us) = tour us := by
  have hz : ∀ u ∈ us, u ≠ [] ∧ ∀ x ∈ u, x ≠ 0 := by
    refine fun u hu => ⟨fun e => hne (e ▸ hu), fun x hx => ?_⟩
    have := hp.mem_iff.1 (List.mem_flatten.2 ⟨u, hu, hx⟩)
    rw [List.mem_range'_1] at this
    omega
  have hf : Feasible D d C L (tour us) := by
    intro b hb
    rw [blocks_tour_of_routes us hz] at hb
    exact hok b hb
  have hc := customers_flatten hz
  refine ⟨⟨depotEnds_tour us, ?_, squeeze_tour hz, fun _ => hf⟩, hf, ?_⟩
  · unfold Covers
    rw [hc]; exact hp
  · rw [without_empty_routes_eq_squeeze (chain_of_nodup ?_), squeeze_tour hz]
    rw [hc]
    exact hp.nodup_iff.2 ((List.pairwise_lt_range' 1).imp fun h => ne_of_lt h)

end Verif
