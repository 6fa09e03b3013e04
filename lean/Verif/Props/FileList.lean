import Verif.Model.FileList
import Mathlib.Data.List.Count
import Mathlib.Data.List.Nodup
import Mathlib.Tactic.Linarith

/-!
# Recursive listing of the problem files (C41)
-/

namespace Verif

/-- The folder with the relative path `q` is among the given ones, and has the folders `s` in it. -/
inductive Spec.FolderAt : Folders → List ℕ → Folders → Prop where
  | here (n : ℕ) (s r : Folders) : FolderAt (.cons n s r) [n] s
  | inside {n : ℕ} {s r s' : Folders} {q : List ℕ} : FolderAt s q s' → FolderAt (.cons n s r) (n :: q) s'
  | next {n : ℕ} {s r s' : Folders} {q : List ℕ} : FolderAt r q s' → FolderAt (.cons n s r) q s'

/-- The names in one folder. -/
def Spec.folderNames : Folders → List ℕ
  | .nil => []
  | .cons n _ r => n :: folderNames r

/-- In each folder the names are distinct. -/
def Spec.DistinctNames : Folders → Prop
  | .nil => True
  | .cons n s r => n ∉ Spec.folderNames r ∧ DistinctNames s ∧ DistinctNames r

open Spec

/-- All the paths that come from the folders in the folder `p`, with repetitions. -/
def grown (p : List ℕ) : Folders → List (List ℕ)
  | .nil => []
  | .cons n s r => (p ++ [n]) :: (grown (p ++ [n]) s ++ grown (p ++ [n]) s ++ grown p r)

theorem flatMap_perm_append {α β : Type} (f g : α → List β) (l : List α) :
    (l.flatMap fun x => f x ++ g x).Perm (l.flatMap f ++ l.flatMap g) := by
  induction l with
  | nil => simp
  | cons a t ih =>
    simp only [List.flatMap_cons]
    refine (ih.append_left _).trans ?_
    rw [List.append_assoc, List.append_assoc]
    refine List.Perm.append_left _ ?_
    rw [← List.append_assoc, ← List.append_assoc]
    exact List.perm_append_comm.append_right _

theorem grown_walk (f : Folders) : ∀ p, ((walkDirs p f).flatMap fun x => x.1 :: grown x.1 x.2).Perm (grown p f) := by
  induction f with
  | nil => intro p; exact List.Perm.refl _
  | cons n s r ihs ihr =>
    intro p
    have h1 := ihs (p ++ [n])
    have h2 := ihr p
    simp only [walkDirs, List.flatMap_append] at h1 h2
    simp only [walkDirs, level, belowDirs, grown, List.flatMap_append, List.flatMap_cons, List.cons_append]
    refine List.Perm.cons _ ?_
    rw [List.append_assoc, List.append_assoc]
    refine List.Perm.append_left _ ?_
    refine List.Perm.trans ?_ (h1.append h2)
    generalize List.flatMap (fun x : List ℕ × Folders => x.1 :: grown x.1 x.2) (level p r) = a
    generalize List.flatMap (fun x : List ℕ × Folders => x.1 :: grown x.1 x.2) (belowDirs p r) = b
    generalize List.flatMap (fun x : List ℕ × Folders => x.1 :: grown x.1 x.2) (level (p ++ [n]) s) = c
    generalize List.flatMap (fun x : List ℕ × Folders => x.1 :: grown x.1 x.2) (belowDirs (p ++ [n]) s) = e
    have h : (a ++ (c ++ e)).Perm (c ++ e ++ a) := List.perm_append_comm
    simpa using h.append_right b

theorem growPaths_spec (m : ℕ) : ∀ (done : List (List ℕ)) (rest : List (List ℕ × Folders)),
    (rest.flatMap fun x => x.1 :: grown x.1 x.2).length ≤ m →
    ∃ l, l.Perm (done ++ rest.flatMap fun x => x.1 :: grown x.1 x.2) ∧
      ∀ fuel, m ≤ fuel → growPaths fuel done rest = some l := by
  induction m with
  | zero =>
    intro done rest h
    cases rest with
    | nil => exact ⟨done, by simp, fun fuel _ => by simp [growPaths]⟩
    | cons a t => simp at h
  | succ m ih =>
    intro done rest h
    cases rest with
    | nil => exact ⟨done, by simp, fun fuel _ => by simp [growPaths]⟩
    | cons a t =>
      obtain ⟨p, f⟩ := a
      have hw := grown_walk f p
      obtain ⟨l, hl, hf⟩ := ih (done ++ [p]) (t ++ walkDirs p f) (by
        rw [List.flatMap_append, List.length_append, hw.length_eq]
        simp only [List.flatMap_cons, List.length_append, List.length_cons] at h
        omega)
      refine ⟨l, hl.trans ?_, fun fuel hfu => ?_⟩
      · rw [List.flatMap_append, List.flatMap_cons, List.append_assoc]
        refine List.Perm.append_left _ ?_
        simp only [List.cons_append, List.nil_append]
        refine List.Perm.cons _ ?_
        exact (hw.append_left _).trans List.perm_append_comm
      · obtain ⟨fuel, rfl⟩ : ∃ k, fuel = k + 1 := ⟨fuel - 1, by omega⟩
        rw [growPaths]
        exact hf fuel (by omega)

theorem grown_prefix (f : Folders) : ∀ p, ∀ q ∈ grown p f, ∃ n t, n ∈ folderNames f ∧ q = p ++ n :: t := by
  induction f with
  | nil => intro p q h; simp [grown] at h
  | cons n s r ihs ihr =>
    intro p q h
    simp only [grown, List.mem_cons, List.mem_append, or_self] at h
    rcases h with rfl | h | h
    · exact ⟨n, [], by simp [folderNames], rfl⟩
    · obtain ⟨m, t, _, rfl⟩ := ihs _ q h
      exact ⟨n, m :: t, by simp [folderNames], by simp⟩
    · obtain ⟨m, t, hm, rfl⟩ := ihr _ q h
      exact ⟨m, t, by simp [folderNames, hm], rfl⟩

theorem folderAt_ne_nil {f s : Folders} {q : List ℕ} (h : FolderAt f q s) :
    ∃ n t, n ∈ folderNames f ∧ q = n :: t := by
  induction h with
  | here n s r => exact ⟨n, [], by simp [folderNames], rfl⟩
  | inside _ ih => exact ⟨_, _, by simp [folderNames], rfl⟩
  | next _ ih =>
    obtain ⟨n, t, hn, e⟩ := ih
    exact ⟨n, t, by simp [folderNames, hn], e⟩

theorem count_grown (f : Folders) : DistinctNames f → ∀ p q s, FolderAt f q s →
    (grown p f).count (p ++ q) = 2 ^ (q.length - 1) := by
  induction f with
  | nil => intro _ p q s h; cases h
  | cons n sub r ihs ihr =>
    intro hd p q s h
    have hnotr : ∀ t, (grown p r).count (p ++ n :: t) = 0 := by
      intro t
      rw [List.count_eq_zero]
      intro hm
      obtain ⟨m, t', hm', e⟩ := grown_prefix r p _ hm
      rw [List.append_cancel_left_eq, List.cons.injEq] at e
      exact hd.1 (e.1 ▸ hm')
    cases h with
    | here =>
      have hnots : (grown (p ++ [n]) sub).count (p ++ [n]) = 0 := by
        rw [List.count_eq_zero]
        intro hm
        obtain ⟨m, t', _, e⟩ := grown_prefix sub _ _ hm
        have := congrArg List.length e
        simp at this
      simp only [grown, List.count_cons, List.count_append, hnots, hnotr]
      simp
    | inside h =>
      rename_i q
      obtain ⟨m, t, _, rfl⟩ := folderAt_ne_nil h
      have := ihs hd.2.1 (p ++ [n]) _ _ h
      simp only [List.append_assoc, List.cons_append, List.nil_append, List.length_cons,
        Nat.add_sub_cancel] at this
      simp only [grown, List.count_cons, List.count_append, this, hnotr, List.length_cons,
        Nat.add_sub_cancel]
      have hne : ¬ (p ++ [n] == p ++ n :: m :: t) = true := by simp
      rw [if_neg hne, Nat.pow_succ]
      omega
    | next h =>
      obtain ⟨m, t, hm, rfl⟩ := folderAt_ne_nil h
      have hmn : m ≠ n := fun e => hd.1 (e ▸ hm)
      have := ihr hd.2.2 p _ _ h
      have hnots : (grown (p ++ [n]) sub).count (p ++ m :: t) = 0 := by
        rw [List.count_eq_zero]
        intro hmem
        obtain ⟨m', t', _, e⟩ := grown_prefix sub _ _ hmem
        simp at e
        exact hmn e.1
      have hne : ¬ (p ++ [n] == p ++ m :: t) = true := by
        simp [Ne.symm hmn]
      simp only [grown, List.count_cons, List.count_append, this, hnots, if_neg hne]
      omega

/-- The paths that are searched, for one given folder. -/
theorem searched {f : Folders} (p : List ℕ) (hd : DistinctNames f) :
    ∃ l : List (List ℕ), (∃ F, ∀ fuel, F ≤ fuel → growPaths fuel [] [(p, f)] = some l) ∧
      l.count p = 1 ∧ (∀ q s, FolderAt f q s → l.count (p ++ q) = 2 ^ (q.length - 1)) ∧
      ∀ x ∈ l, x = p ∨ ∃ q s, FolderAt f q s ∧ x = p ++ q := by
  obtain ⟨l, hl, hf⟩ := growPaths_spec _ [] [(p, f)] (le_refl _)
  simp only [List.flatMap_cons, List.flatMap_nil, List.append_nil, List.nil_append] at hl hf
  refine ⟨l, ⟨_, hf⟩, ?_, ?_, ?_⟩
  · rw [hl.count_eq, List.count_cons_self]
    have : (grown p f).count p = 0 := by
      rw [List.count_eq_zero]
      intro hm
      obtain ⟨m, t, _, e⟩ := grown_prefix f p _ hm
      have := congrArg List.length e
      simp at this
    rw [this]
  · intro q s h
    obtain ⟨m, t, _, e⟩ := folderAt_ne_nil h
    rw [hl.count_eq, List.count_cons, count_grown f hd p q s h]
    simp [e]
  · intro x hx
    have := hl.mem_iff.1 hx
    rcases List.mem_cons.1 this with h | h
    · exact Or.inl h
    · right
      clear this hx hl hf hd
      revert p
      induction f with
      | nil => intro p h; simp [grown] at h
      | cons n s r ihs ihr =>
        intro p h
        simp only [grown, List.mem_cons, List.mem_append, or_self] at h
        rcases h with rfl | h | h
        · exact ⟨[n], s, .here n s r, rfl⟩
        · obtain ⟨q, s', h1, h2⟩ := ihs _ h
          exact ⟨n :: q, s', .inside h1, by rw [h2]; simp⟩
        · obtain ⟨q, s', h1, h2⟩ := ihr _ h
          exact ⟨q, s', .next h1, h2⟩

/-- C41. With the recursive option every folder below the given one is searched, and nothing else, but a
folder at depth `k ≥ 1` below it is searched `2 ^ (k - 1)` times. -/
theorem C41_times {f : Folders} (p : List ℕ) (hd : DistinctNames f) :
    ∃ l : List (List ℕ),
      (∃ F, ∀ fuel, F ≤ fuel → get_a_problem_file_list fuel (fun x => [x]) [(p, f)] true = some l) ∧
      l.count p = 1 ∧ (∀ q s, FolderAt f q s → l.count (p ++ q) = 2 ^ (q.length - 1)) ∧
      ∀ x ∈ l, x = p ∨ ∃ q s, FolderAt f q s ∧ x = p ++ q := by
  obtain ⟨l, ⟨F, hF⟩, h⟩ := searched p hd
  refine ⟨l, ⟨F, fun fuel hf => ?_⟩, h⟩
  simp [get_a_problem_file_list, hF fuel hf]

/-- C41, the part that holds: if the folders in the given folder have no folders in them, each is
searched exactly once. Missing: deeper trees, where it is false (`C41_false`). -/
theorem C41_once_partial {f : Folders} (p : List ℕ) (hd : DistinctNames f)
    (hflat : ∀ q s, FolderAt f q s → q.length = 1) :
    ∃ l : List (List ℕ),
      (∃ F, ∀ fuel, F ≤ fuel → get_a_problem_file_list fuel (fun x => [x]) [(p, f)] true = some l) ∧
      l.Nodup ∧ ∀ x, x ∈ l ↔ x = p ∨ ∃ q s, FolderAt f q s ∧ x = p ++ q := by
  obtain ⟨l, hF, h1, h2, h3⟩ := C41_times p hd
  have h2' : ∀ q s, FolderAt f q s → l.count (p ++ q) = 1 := by
    intro q s h
    rw [h2 q s h, hflat q s h]
    rfl
  refine ⟨l, hF, ?_, fun x => ⟨h3 x, ?_⟩⟩
  · rw [List.nodup_iff_count_le_one]
    intro x
    by_cases hx : x ∈ l
    · rcases h3 x hx with rfl | ⟨q, s, h, rfl⟩
      · omega
      · rw [h2' q s h]
    · rw [List.count_eq_zero.2 hx]; omega
  · rintro (rfl | ⟨q, s, h, rfl⟩)
    · exact List.count_pos_iff.1 (by omega)
    · exact List.count_pos_iff.1 (by rw [h2' q s h]; omega)

/-- C41 is false: a problem in a folder in a folder in the given folder is listed twice. -/
theorem C41_false : get_a_problem_file_list 10 (fun x => if x = [7, 1, 2] then ["A.vrp"] else [])
    [([7], .cons 1 (.cons 2 .nil .nil) .nil)] true = some ["A.vrp", "A.vrp"] := by decide

/-- A tree three deep meets the hypotheses of `C41_times`. -/
example : DistinctNames (.cons 1 (.cons 1 (.cons 2 .nil .nil) .nil) (.cons 2 .nil .nil)) ∧
    FolderAt (.cons 1 (.cons 1 (.cons 2 .nil .nil) .nil) (.cons 2 .nil .nil)) [1, 1, 2] .nil :=
  ⟨by simp [DistinctNames, folderNames], .inside (.inside (.here 2 .nil .nil))⟩

/-- A flat one meets those of `C41_once_partial`. -/
example : DistinctNames (.cons 1 .nil (.cons 2 .nil .nil)) ∧
    ∀ q s, FolderAt (.cons 1 .nil (.cons 2 .nil .nil)) q s → q.length = 1 := by
  refine ⟨by simp [DistinctNames, folderNames], fun q s h => ?_⟩
  cases h with
  | here => rfl
  | inside h => cases h
  | next h =>
    cases h with
    | here => rfl
    | inside h => cases h
    | next h => cases h

end Verif
