import Verif.Model.RouteData
import Verif.Lemmas.Util

/-! # Lemmas for `routedata.py` -/

namespace Verif
open Spec

/-- Running sums of the costs along a walk that continues from `p`. -/
def cumCost (D : ℕ → ℕ → ℚ) (c : ℚ) (p : ℕ) : List ℕ → List ℚ
  | [] => []
  | n :: t => (c + D p n) :: cumCost D (c + D p n) n t

/-- Running sums of demands. -/
def cumDem (d : ℕ → ℚ) (c : ℚ) : List ℕ → List ℚ
  | [] => []
  | n :: t => (c + d n) :: cumDem d (c + d n) t

def cumDemO (d : Option (ℕ → ℚ)) (l : List ℕ) : List ℚ :=
  match d with
  | none => List.replicate l.length 0
  | some d => cumDem d 0 l

theorem cumCost_length (D : ℕ → ℕ → ℚ) (c : ℚ) (p : ℕ) (l : List ℕ) :
    (cumCost D c p l).length = l.length := by
  induction l generalizing c p with
  | nil => rfl
  | cons a t ih => simp [cumCost, ih]

theorem cumDem_length (d : ℕ → ℚ) (c : ℚ) (l : List ℕ) : (cumDem d c l).length = l.length := by
  induction l generalizing c with
  | nil => rfl
  | cons a t ih => simp [cumDem, ih]

theorem cumCost_get (D : ℕ → ℕ → ℚ) (c : ℚ) (p : ℕ) (l : List ℕ) (i : ℕ) (h : i < l.length) :
    (cumCost D c p l)[i]? = some (c + cost D (p :: l.take (i + 1))) := by
  induction l generalizing c p i with
  | nil => simp at h
  | cons a t ih =>
    cases i with
    | zero => simp [cumCost]
    | succ i =>
      simp at h
      rw [cumCost, List.getElem?_cons_succ, ih _ _ _ h]
      simp; ring

theorem cumDem_get (d : ℕ → ℚ) (c : ℚ) (l : List ℕ) (i : ℕ) (h : i < l.length) :
    (cumDem d c l)[i]? = some (c + demand d (l.take (i + 1))) := by
  induction l generalizing c i with
  | nil => simp at h
  | cons a t ih =>
    cases i with
    | zero => simp [cumDem]
    | succ i =>
      simp at h
      rw [cumDem, List.getElem?_cons_succ, ih _ _ h]
      simp; ring

/-- Forward: the loop fills the list from position `i` on. -/
theorem auxLoop_fwd (D : ℕ → ℕ → ℚ) (d : Option (ℕ → ℚ)) (l : List ℕ) :
    ∀ (cd cl : ℚ) (p : ℕ) (rd rl zd zl : List ℚ), rd.length = rl.length → zd.length = l.length →
      zl.length = l.length → (d = none → ∀ z ∈ zd, z = 0) →
      ∃ s, auxLoop D d setIdx l ⟨cd, cl, p, rl.length, rd ++ zd, rl ++ zl⟩ = .ok s ∧
        s.route_l = rl ++ cumCost D cl p l ∧
        s.route_d = rd ++ (match d with
          | none => zd
          | some d => cumDem d cd l) := by
  induction l with
  | nil =>
    intro cd cl p rd rl zd zl h1 h2 h3 _
    have : zd = [] := by simpa using h2
    have : zl = [] := by simpa using h3
    subst_vars
    exact ⟨_, rfl, by simp [cumCost], by cases d <;> simp [cumDem]⟩
  | cons n t ih =>
    intro cd cl p rd rl zd zl h1 h2 h3 h4
    obtain ⟨z, zd, rfl⟩ := List.exists_cons_of_length_pos (by rw [h2]; simp : 0 < zd.length)
    obtain ⟨z', zl, rfl⟩ := List.exists_cons_of_length_pos (by rw [h3]; simp : 0 < zl.length)
    have set_eq : ∀ (r zz : List ℚ) (a v : ℚ), setIdx (r ++ a :: zz) r.length v = .ok ((r ++ [v]) ++ zz) := by
      intro r zz a v
      simp [setIdx]
    cases d with
    | none =>
      have hz : z = 0 := h4 rfl z (by simp)
      have := ih cd (cl + D p n) n (rd ++ [z]) (rl ++ [cl + D p n]) zd zl
        (by simp [h1]) (by simpa using h2) (by simpa using h3)
        (fun h x hx => h4 h x (List.mem_cons_of_mem _ hx))
      obtain ⟨s, e1, e2, e3⟩ := this
      refine ⟨s, ?_, ?_, ?_⟩
      · rw [auxLoop]
        simp only [pure, Except.pure, bind, Except.bind, set_eq]
        rw [← e1]; simp
      · rw [e2]; simp [cumCost]
      · rw [e3]; simp
    | some d =>
      have := ih (cd + d n) (cl + D p n) n (rd ++ [cd + d n]) (rl ++ [cl + D p n]) zd zl
        (by simp [h1]) (by simpa using h2) (by simpa using h3) (by simp)
      obtain ⟨s, e1, e2, e3⟩ := this
      refine ⟨s, ?_, ?_, ?_⟩
      · rw [auxLoop]
        have hset := set_eq rd zd z (cd + d n)
        rw [h1] at hset
        simp only [pure, Except.pure, bind, Except.bind, set_eq, hset]
        rw [← e1]; simp
      · rw [e2]; simp [cumCost]
      · rw [e3]; simp [cumDem]

/-- Backward: the loop fills the list from the end. -/
theorem auxLoop_bwd (D : ℕ → ℕ → ℚ) (d : Option (ℕ → ℚ)) (l : List ℕ) :
    ∀ (cd cl : ℚ) (p : ℕ) (rd rl zd zl : List ℚ), rd.length = rl.length → zd.length = l.length →
      zl.length = l.length → (d = none → ∀ z ∈ zd, z = 0) →
      ∃ s, auxLoop D d setIdxNeg l ⟨cd, cl, p, rl.length + 1, zd ++ rd, zl ++ rl⟩ = .ok s ∧
        s.route_l = (cumCost D cl p l).reverse ++ rl ∧
        s.route_d = (match d with
          | none => zd
          | some d => (cumDem d cd l).reverse) ++ rd := by
  induction l with
  | nil =>
    intro cd cl p rd rl zd zl h1 h2 h3 _
    have : zd = [] := by simpa using h2
    have : zl = [] := by simpa using h3
    subst_vars
    exact ⟨_, rfl, by simp [cumCost], by cases d <;> simp [cumDem]⟩
  | cons n t ih =>
    intro cd cl p rd rl zd zl h1 h2 h3 h4
    have split : ∀ z : List ℚ, z.length = (n :: t).length → ∃ y a, z = y ++ [a] := by
      intro z hz
      rcases List.eq_nil_or_concat z with rfl | ⟨m, b, rfl⟩
      · simp at hz
      · exact ⟨m, b, by simp⟩
    obtain ⟨zd, z, rfl⟩ := split zd h2
    obtain ⟨zl, z', rfl⟩ := split zl h3
    have set_eq : ∀ (r zz : List ℚ) (a v : ℚ),
        setIdxNeg (zz ++ [a] ++ r) (r.length + 1) v = .ok (zz ++ ([v] ++ r)) := by
      intro r zz a v
      have e : (zz ++ [a] ++ r).length - (r.length + 1) = zz.length := by simp
      rw [setIdxNeg, if_neg (by simp), e]
      simp [setIdx]
    cases d with
    | none =>
      have := ih cd (cl + D p n) n ([z] ++ rd) ([cl + D p n] ++ rl) zd zl
        (by simp [h1]) (by simpa using h2) (by simpa using h3)
        (fun h x hx => h4 h x (by simp [hx]))
      obtain ⟨s, e1, e2, e3⟩ := this
      refine ⟨s, ?_, ?_, ?_⟩
      · rw [auxLoop]
        simp only [pure, Except.pure, bind, Except.bind, set_eq]
        rw [← e1]; simp [Nat.add_comm]
      · rw [e2]; simp [cumCost]
      · rw [e3]; simp
    | some d =>
      have := ih (cd + d n) (cl + D p n) n ([cd + d n] ++ rd) ([cl + D p n] ++ rl) zd zl
        (by simp [h1]) (by simpa using h2) (by simpa using h3) (by simp)
      obtain ⟨s, e1, e2, e3⟩ := this
      refine ⟨s, ?_, ?_, ?_⟩
      · rw [auxLoop]
        have hset := set_eq rd zd z (cd + d n)
        rw [h1] at hset
        simp only [pure, Except.pure, bind, Except.bind, set_eq, hset]
        rw [← e1]; simp [Nat.add_comm]
      · rw [e2]; simp [cumCost]
      · rw [e3]; simp [cumDem]

end Verif
