import Verif.Model.NaturalSort
import Verif.Lemmas.CoordFile
import Verif.Model.Sort
import Verif.Spec.NaturalSort
import Mathlib.Data.List.Sort
import Mathlib.Data.Sum.Order
import Mathlib.Data.List.Lex
import Mathlib.Data.List.TakeWhile
import Mathlib.Data.Char

/-! # Lemmas on the natural order of names -/

namespace Verif
open Spec

theorem isDec_iff (c : Char) : isDec c = true ↔ Dec c := by unfold isDec Dec; simp

theorem isDec_false {c : Char} (h : ¬ Dec c) : isDec c = false := by
  rw [← Bool.not_eq_true, isDec_iff]; exact h

theorem splitDigits_text {u : List Char} (hu : NoDigits u) (cur s : List Char) :
    splitDigits cur false (u ++ s) = splitDigits (cur ++ u) false s := by
  induction u generalizing cur with
  | nil => simp
  | cons c u ih =>
    rw [List.cons_append, splitDigits, if_pos (isDec_false (hu c (by simp))), ih (fun x hx => hu x (by simp [hx]))]
    simp

theorem splitDigits_digits {d : List Char} (hd : ∀ c ∈ d, Dec c) (cur s : List Char) :
    splitDigits cur true (d ++ s) = splitDigits (cur ++ d) true s := by
  induction d generalizing cur with
  | nil => simp
  | cons c u ih =>
    rw [List.cons_append, splitDigits, if_pos ((isDec_iff c).2 (hd c (by simp))), ih (fun x hx => hd x (by simp [hx]))]
    simp

theorem splitDigits_back {s : List Char} (hs : TextFirst s) (cur : List Char) :
    splitDigits cur true s = cur :: splitDigits [] false s := by
  cases s with
  | nil => simp [splitDigits]
  | cons c s =>
    have h := isDec_false (hs c (by simp))
    rw [splitDigits, splitDigits, if_neg (by rw [h]; decide), if_pos h]
    rfl

theorem splitDigits_plain {u : List Char} (hu : NoDigits u) : splitDigits [] false u = [u] := by
  have := splitDigits_text hu [] []
  rw [List.append_nil] at this
  rw [this]
  simp [splitDigits]

theorem splitDigits_step {u d s : List Char} (hu : NoDigits u) (hd : AllDigits d) (hs : TextFirst s) :
    splitDigits [] false (u ++ (d ++ s)) = u :: d :: splitDigits [] false s := by
  rw [splitDigits_text hu, List.nil_append]
  obtain ⟨h1, h2⟩ := hd
  cases d with
  | nil => exact absurd rfl h1
  | cons c d =>
    rw [List.cons_append, splitDigits, if_neg (by rw [(isDec_iff c).2 (h2 c (by simp))]; decide)]
    have := splitDigits_digits (d := d) (fun x hx => h2 x (by simp [hx])) [c] s
    show u :: splitDigits [c] true (d ++ s) = _
    rw [this, splitDigits_back hs]
    rfl

/-- Every name is a text, or a text, a number and another name. -/
theorem name_cases (s : List Char) : NoDigits s ∨
    ∃ u d t, s = u ++ (d ++ t) ∧ NoDigits u ∧ AllDigits d ∧ TextFirst t ∧ t.length < s.length := by
  by_cases h : NoDigits s
  · exact Or.inl h
  refine Or.inr ?_
  have h1 := List.takeWhile_append_dropWhile (p := fun c => !isDec c) (l := s)
  set u := s.takeWhile fun c => !isDec c with hu
  set r := s.dropWhile fun c => !isDec c with hr
  have hu' : NoDigits u := fun c hc => by
    have := List.mem_takeWhile_imp hc
    rw [← isDec_iff]
    simpa using this
  have h2 := List.takeWhile_append_dropWhile (p := isDec) (l := r)
  set d := r.takeWhile isDec with hd
  set t := r.dropWhile isDec with ht
  have hr0 : r ≠ [] := by
    intro h0
    rw [h0, List.append_nil] at h1
    exact h (h1 ▸ hu')
  have hd0 : d ≠ [] := by
    have := List.head_dropWhile_not (fun c => !isDec c) hr0
    rw [hd]
    cases hr1 : r with
    | nil => exact absurd hr1 hr0
    | cons c r' =>
      have hc : isDec c = true := by
        have h3 : (r.head hr0) = c := by simp [hr1]
        rw [← h3]
        simpa using this
      simp [List.takeWhile, hc]
  refine ⟨u, d, t, by rw [h2, h1], hu', ⟨hd0, fun c hc => (isDec_iff c).1 (List.mem_takeWhile_imp hc)⟩, ?_, ?_⟩
  · intro c hc
    cases ht1 : t with
    | nil => rw [ht1] at hc; simp at hc
    | cons x t' =>
      rw [ht1] at hc
      simp at hc
      subst hc
      have hne : t ≠ [] := by rw [ht1]; simp
      have := List.head_dropWhile_not isDec (l := r) hne
      have h3 : t.head hne = x := by simp [ht1]
      rw [h3] at this
      rw [← isDec_iff, this]
      decide
  · have := congrArg List.length h1
    have h4 := congrArg List.length h2
    have : 0 < d.length := List.length_pos_of_ne_nil hd0
    simp at *
    omega

theorem intOfDigits_ok (u : CharTable) (n : ℕ) {d : List Char} (hd : ∀ c ∈ d, Dec c) :
    intOfDigits u n d = .ok (n * 10 ^ d.length + number d) := by
  induction d generalizing n with
  | nil => simp [intOfDigits, number]
  | cons c d ih =>
    unfold intOfDigits
    have h1 : digitOf u c = some (some (c.toNat - '0'.toNat)) := by
      unfold digitOf; rw [if_pos ((isDec_iff c).2 (hd c (by simp)))]
    rw [h1]
    dsimp only
    rw [ih _ fun x hx => hd x (by simp [hx])]
    congr 1
    unfold number
    rw [List.reverse_cons, List.map_append, Nat.ofDigits_append]
    simp only [List.map_cons, List.map_nil, Nat.ofDigits_singleton, List.length_map, List.length_reverse, List.length_cons]
    ring

theorem convertPiece_digits (u : CharTable) {d : List Char} (hd : AllDigits d) : convertPiece u d = .ok (.num (number d)) := by
  unfold convertPiece
  rw [if_pos, intOfDigits_ok u 0 hd.2]
  · simp
  · refine ⟨hd.1, fun c hc => ?_⟩
    unfold digitOf
    rw [if_pos ((isDec_iff c).2 (hd.2 c hc))]
    rfl

theorem convertPiece_text {u : CharTable} {s : List Char} (hs : NoDigits s) (hp : PlainName u.digit s) :
    convertPiece u s = .ok (.text (u.lower s)) := by
  unfold convertPiece
  rw [if_neg]
  rintro ⟨h1, h2⟩
  cases s with
  | nil => exact h1 rfl
  | cons c s =>
    have := h2 c (by simp)
    unfold digitOf at this
    rw [if_neg (by rw [isDec_false (hs c (by simp))]; decide), hp c (by simp) (hs c (by simp))] at this
    exact absurd this (by decide)

/-- The key of a name, if there is one. -/
def keyOf (u : CharTable) (s : List Char) : List Piece :=
  match alphanum_key u s with
  | .ok k => k
  | .error _ => []

theorem alphanum_key_text {u : CharTable} {s : List Char} (hs : NoDigits s) (hp : PlainName u.digit s) :
    alphanum_key u s = .ok [.text (u.lower s)] := by
  unfold alphanum_key
  rw [splitDigits_plain hs]
  simp [convertPieces, convertPiece_text hs hp]

theorem alphanum_key_step {u : CharTable} {v d s : List Char} {k : List Piece} (hv : NoDigits v) (hp : PlainName u.digit v)
    (hd : AllDigits d) (hs : TextFirst s) (hk : alphanum_key u s = .ok k) :
    alphanum_key u (v ++ (d ++ s)) = .ok (.text (u.lower v) :: .num (number d) :: k) := by
  unfold alphanum_key at *
  rw [splitDigits_step hv hd hs]
  simp [convertPieces, convertPiece_text hv hp, convertPiece_digits u hd, hk]

theorem alphanum_key_ok {u : CharTable} (n : ℕ) : ∀ {s : List Char}, s.length ≤ n → PlainName u.digit s →
    alphanum_key u s = .ok (keyOf u s) := by
  induction n with
  | zero =>
    intro s h hp
    have h0 : s = [] := List.eq_nil_of_length_eq_zero (by omega)
    have := alphanum_key_text (u := u) (s := s) (by rw [h0]; intro c hc; simp at hc) hp
    unfold keyOf
    rw [this]
  | succ n ih =>
    intro s h hp
    unfold keyOf
    rcases name_cases s with hs | ⟨v, d, t, rfl, hv, hd, ht, hl⟩
    · rw [alphanum_key_text hs hp]
    · have := alphanum_key_step hv (fun c hc => hp c (by simp [hc])) hd ht (ih (s := t) (by omega) fun c hc => hp c (by simp [hc]))
      rw [this]

theorem keyOf_text {u : CharTable} {s : List Char} (hs : NoDigits s) (hp : PlainName u.digit s) : keyOf u s = [.text (u.lower s)] := by
  unfold keyOf; rw [alphanum_key_text hs hp]

theorem keyOf_step {u : CharTable} {v d s : List Char} (hv : NoDigits v) (hp : PlainName u.digit (v ++ (d ++ s))) (hd : AllDigits d)
    (hs : TextFirst s) : keyOf u (v ++ (d ++ s)) = .text (u.lower v) :: .num (number d) :: keyOf u s := by
  have := alphanum_key_step hv (fun c hc => hp c (by simp [hc])) hd hs
    (alphanum_key_ok s.length (s := s) le_rfl fun c hc => hp c (by simp [hc]))
  conv_lhs => unfold keyOf
  rw [this]

/-- The keys as elements of a linear order. -/
def encPiece : Piece → ℕ ⊕ₗ List Char
  | .num n => Sum.inlₗ n
  | .text s => Sum.inrₗ s

theorem encPiece_inj {a b : Piece} (h : encPiece a = encPiece b) : a = b := by
  cases a <;> cases b <;> simp [encPiece] at h <;> simp [h]

theorem keyLt_enc {a b : List Piece} {r : Bool} (h : keyLt a b = .ok r) : r = true ↔ a.map encPiece < b.map encPiece := by
  induction a generalizing b with
  | nil =>
    cases b with
    | nil => simp [keyLt] at h; simp [h]
    | cons y b => simp [keyLt] at h; simp [h]
  | cons x a ih =>
    cases b with
    | nil => simp [keyLt] at h; simp [h]
    | cons y b =>
      unfold keyLt at h
      by_cases hxy : x = y
      · rw [if_pos hxy] at h
        rw [ih h, hxy]
        simp only [List.map_cons, List.cons_lt_cons_iff, true_and]
        exact ⟨Or.inr, fun h => h.resolve_left (lt_irrefl _)⟩
      · rw [if_neg hxy] at h
        have hne : encPiece x ≠ encPiece y := fun h => hxy (encPiece_inj h)
        have : r = true ↔ encPiece x < encPiece y := by
          cases x <;> cases y <;> simp [pieceLt] at h <;> simp [encPiece, ← h]
        rw [this]
        simp [List.cons_lt_cons_iff, hne]

theorem keyLt_text {u v : List Char} {k l : List Piece} (h : u ≠ v) :
    keyLt (.text u :: k) (.text v :: l) = .ok (decide (u < v)) := by
  unfold keyLt
  rw [if_neg (by simpa using h)]
  rfl

theorem keyLt_same {p : Piece} {k l : List Piece} : keyLt (p :: k) (p :: l) = keyLt k l := by
  rw [keyLt, if_pos rfl]

theorem keyLt_num {m n : ℕ} {k l : List Piece} (h : m ≠ n) : keyLt (.num m :: k) (.num n :: l) = .ok (decide (m < n)) := by
  unfold keyLt
  rw [if_neg (by simpa using h)]
  rfl

/-- The comparison of two names never fails, and tells which one comes first. -/
theorem keyLt_sound {u : CharTable} (n : ℕ) : ∀ {a b : List Char}, a.length ≤ n → PlainName u.digit a → PlainName u.digit b →
    ∃ r, keyLt (keyOf u a) (keyOf u b) = .ok r ∧ (r = true → Before u.lower a b) := by
  have hdig : ∀ {d t : List Char}, AllDigits d → ∃ c s', d ++ t = c :: s' ∧ Dec c := by
    rintro d t ⟨h1, h2⟩
    cases d with
    | nil => exact absurd rfl h1
    | cons c d => exact ⟨c, d ++ t, rfl, h2 c (by simp)⟩
  induction n with
  | zero =>
    intro a b h ha hb
    have h0 : a = [] := List.eq_nil_of_length_eq_zero (by omega)
    subst h0
    have hn : NoDigits [] := by intro c hc; simp at hc
    rw [keyOf_text hn ha]
    rcases name_cases b with hs | ⟨v, d, t, rfl, hv, hd, ht, hl⟩
    · rw [keyOf_text hs hb]
      by_cases e : u.lower [] = u.lower b
      · rw [e, keyLt_same]; exact ⟨false, rfl, by simp⟩
      · rw [keyLt_text e]
        refine ⟨_, rfl, fun h => ?_⟩
        have := Before.text (lower := u.lower) (s := []) (t := []) hn hs (Or.inl rfl) (Or.inl rfl) (of_decide_eq_true h)
        simpa using this
    · rw [keyOf_step hv hb hd ht]
      by_cases e : u.lower [] = u.lower v
      · rw [e, keyLt_same]; exact ⟨true, rfl, fun _ => Before.ends hn hv hd ht e⟩
      · rw [keyLt_text e]
        exact ⟨_, rfl, fun h => Before.text (lower := u.lower) (s := []) hn hv (Or.inl rfl) (Or.inr (hdig hd)) (of_decide_eq_true h)⟩
  | succ n ih =>
    intro a b h ha hb
    rcases name_cases a with hn | ⟨w, e, s, rfl, hw, he, hs, hl⟩
    · rw [keyOf_text hn ha]
      rcases name_cases b with hs | ⟨v, d, t, rfl, hv, hd, ht, hl⟩
      · rw [keyOf_text hs hb]
        by_cases e : u.lower a = u.lower b
        · rw [e, keyLt_same]; exact ⟨false, rfl, by simp⟩
        · rw [keyLt_text e]
          refine ⟨_, rfl, fun h => ?_⟩
          have := Before.text (lower := u.lower) (s := []) (t := []) hn hs (Or.inl rfl) (Or.inl rfl) (of_decide_eq_true h)
          simpa using this
      · rw [keyOf_step hv hb hd ht]
        by_cases e : u.lower a = u.lower v
        · rw [e, keyLt_same]; exact ⟨true, rfl, fun _ => Before.ends hn hv hd ht e⟩
        · rw [keyLt_text e]
          refine ⟨_, rfl, fun h => ?_⟩
          have := Before.text (lower := u.lower) (s := []) hn hv (Or.inl rfl) (Or.inr (hdig (t := t) hd)) (of_decide_eq_true h)
          simpa using this
    · rw [keyOf_step hw ha he hs]
      rcases name_cases b with hb0 | ⟨v, d, t, rfl, hv, hd, ht, -⟩
      · rw [keyOf_text hb0 hb]
        by_cases e' : u.lower w = u.lower b
        · rw [e', keyLt_same]; exact ⟨false, rfl, by simp⟩
        · rw [keyLt_text e']
          refine ⟨_, rfl, fun h => ?_⟩
          have := Before.text (lower := u.lower) (t := []) hw hb0 (Or.inr (hdig (t := s) he)) (Or.inl rfl) (of_decide_eq_true h)
          simpa using this
      · rw [keyOf_step hv hb hd ht]
        by_cases e' : u.lower w = u.lower v
        · rw [e', keyLt_same]
          by_cases en : number e = number d
          · rw [en, keyLt_same]
            obtain ⟨r, h1, h2⟩ := ih (a := s) (b := t) (by omega) (fun c hc => ha c (by simp [hc])) fun c hc => hb c (by simp [hc])
            exact ⟨r, h1, fun h => Before.next hw hv he hd hs ht e' en (h2 h)⟩
          · rw [keyLt_num en]
            exact ⟨_, rfl, fun h => Before.number hw hv he hd hs ht e' (of_decide_eq_true h)⟩
        · rw [keyLt_text e']
          exact ⟨_, rfl, fun h => Before.text (lower := u.lower) hw hv (Or.inr (hdig he)) (Or.inr (hdig hd)) (of_decide_eq_true h)⟩

theorem keyOf_head {u : CharTable} {v s : List Char} (hv : NoDigits v) (hs : s = [] ∨ ∃ c s', s = c :: s' ∧ Dec c)
    (hp : PlainName u.digit (v ++ s)) : ∃ k, keyOf u (v ++ s) = .text (u.lower v) :: k := by
  rcases hs with rfl | ⟨c, s', rfl, hc⟩
  · rw [List.append_nil] at hp ⊢
    exact ⟨_, keyOf_text hv hp⟩
  · rcases name_cases (c :: s') with h | ⟨w, d, t, h, hw, hd, ht, -⟩
    · exact absurd hc (h c (by simp))
    · cases w with
      | nil =>
        rw [h, List.nil_append] at hp ⊢
        exact ⟨_, keyOf_step hv hp hd ht⟩
      | cons x w =>
        rw [List.cons_append] at h
        exact absurd hc (by rw [(List.cons.inj h).1]; exact hw x (by simp))

theorem keyLt_complete {u : CharTable} {a b : List Char} (h : Before u.lower a b) : PlainName u.digit a → PlainName u.digit b →
    keyLt (keyOf u a) (keyOf u b) = .ok true := by
  induction h with
  | text hu hv hs ht hlt =>
    intro ha hb
    obtain ⟨k, e1⟩ := keyOf_head hu hs ha
    obtain ⟨l, e2⟩ := keyOf_head hv ht hb
    rw [e1, e2, keyLt_text (ne_of_lt hlt), decide_eq_true hlt]
  | ends hu hv hd ht e =>
    intro ha hb
    rw [keyOf_text hu ha, keyOf_step hv hb hd ht, e, keyLt_same]
    rfl
  | number hu hv hd he hs ht e hlt =>
    intro ha hb
    rw [keyOf_step hu ha hd hs, keyOf_step hv hb he ht, e, keyLt_same, keyLt_num (by omega), decide_eq_true hlt]
  | next hu hv hd he hs ht e en _ ih =>
    intro ha hb
    rw [keyOf_step hu ha hd hs, keyOf_step hv hb he ht, e, keyLt_same, en, keyLt_same]
    exact ih (fun c hc => ha c (by simp [hc])) fun c hc => hb c (by simp [hc])

/-- The order of the keys. -/
def nameLe (x y : List Piece × List Char) : Prop := x.1.map encPiece ≤ y.1.map encPiece

noncomputable instance : DecidableRel nameLe := fun x y => inferInstanceAs (Decidable (x.1.map encPiece ≤ y.1.map encPiece))

instance : Std.Total nameLe := ⟨fun x y => le_total (x.1.map encPiece) (y.1.map encPiece)⟩

instance : IsTrans _ nameLe := ⟨fun _ _ _ h1 h2 => le_trans (α := List (ℕ ⊕ₗ List Char)) h1 h2⟩

theorem insertKey_ok {x : List Piece × List Char} {l : List (List Piece × List Char)}
    (h : ∀ y ∈ l, ∃ r, keyLt y.1 x.1 = .ok r) : insertKey x l = .ok (l.orderedInsert nameLe x) := by
  induction l with
  | nil => rfl
  | cons y l ih =>
    obtain ⟨r, hr⟩ := h y (by simp)
    have he := keyLt_enc hr
    unfold insertKey
    rw [hr]
    cases r with
    | false =>
      have : nameLe x y := not_lt.1 fun hlt => by simpa using he.2 hlt
      rw [List.orderedInsert, if_pos this]
    | true =>
      have : ¬ nameLe x y := not_le.2 (he.1 rfl)
      rw [List.orderedInsert, if_neg this]
      dsimp only
      rw [ih fun z hz => h z (by simp [hz])]

theorem sortKeys_ok {l : List (List Piece × List Char)} (h : ∀ x ∈ l, ∀ y ∈ l, ∃ r, keyLt y.1 x.1 = .ok r) :
    sortKeys l = .ok (l.insertionSort nameLe) := by
  induction l with
  | nil => rfl
  | cons x l ih =>
    unfold sortKeys
    rw [ih fun a ha b hb => h a (by simp [ha]) b (by simp [hb])]
    dsimp only
    rw [insertKey_ok fun y hy => h x (by simp) y (by simp [(List.perm_insertionSort nameLe l).mem_iff.1 hy])]
    rfl

theorem withKeys_ok {u : CharTable} {l : List (List Char)} (h : ∀ s ∈ l, PlainName u.digit s) :
    withKeys u l = .ok (l.map fun s => (keyOf u s, s)) := by
  induction l with
  | nil => rfl
  | cons s l ih =>
    unfold withKeys
    rw [alphanum_key_ok s.length le_rfl (h s (by simp)), ih fun a ha => h a (by simp [ha])]
    rfl

theorem natural_sort_ok {u : CharTable} {l : List (List Char)} (h : ∀ s ∈ l, PlainName u.digit s) :
    natural_sort u l = .ok (((l.map fun s => (keyOf u s, s)).insertionSort nameLe).map (·.2)) := by
  unfold natural_sort
  rw [withKeys_ok h]
  dsimp only
  rw [sortKeys_ok]
  intro x hx y hy
  obtain ⟨a, ha, rfl⟩ := List.mem_map.1 hx
  obtain ⟨b, hb, rfl⟩ := List.mem_map.1 hy
  obtain ⟨r, hr, _⟩ := keyLt_sound b.length le_rfl (h b hb) (h a ha)
  exact ⟨r, hr⟩

theorem before_iff {u : CharTable} {a b : List Char} (ha : PlainName u.digit a) (hb : PlainName u.digit b) :
    Before u.lower a b ↔ (keyOf u a).map encPiece < (keyOf u b).map encPiece := by
  obtain ⟨r, h1, h2⟩ := keyLt_sound a.length le_rfl ha hb
  constructor
  · intro h
    exact (keyLt_enc (keyLt_complete h ha hb)).1 rfl
  · intro h
    exact h2 ((keyLt_enc h1).2 h)

theorem last_ends {lower : List Char → List Char} {e s : List Char} : lower (lastChars e.length s) = e ↔ EndsAs lower e s := by
  unfold lastChars EndsAs
  constructor
  · intro h
    refine ⟨s.take (s.length - e.length), s.drop (s.length - e.length), (List.take_append_drop _ _).symm, ?_, h⟩
    rcases Nat.lt_or_ge s.length e.length with h1 | h1
    · right
      have : s.length - e.length = 0 := by omega
      simp [this]
      omega
    · left
      rw [List.length_drop]; omega
  · rintro ⟨p, q, rfl, hq | ⟨rfl, hq⟩, h⟩
    · rw [List.drop_append]
      have h1 : (p ++ q).length - e.length = p.length := by rw [List.length_append]; omega
      rw [h1]
      simpa using h
    · have h1 : ([] ++ q).length - e.length = 0 := by simp; omega
      rw [h1]
      simpa using h

theorem globIn_mem {fs : FileSystem} {p e f : List Char} :
    f ∈ globIn fs p e ↔ ∃ n ∈ fs.entries p, ProblemName e n ∧ f = inFolder p n := by
  have hj : ∀ n, joinPath p n = inFolder p n := by
    intro n
    unfold joinPath inFolder
    by_cases h : p.getLast? = some '/'
    · obtain ⟨q, rfl⟩ := List.getLast?_eq_some_iff.1 h
      rw [if_pos h, if_pos (List.suffix_append _ _)]
    · rw [if_neg h, if_neg]
      rintro ⟨q, rfl⟩
      exact h (by simp)
  unfold globIn ProblemName
  rw [List.mem_map]
  constructor
  · rintro ⟨n, hn, rfl⟩
    rw [List.mem_filter] at hn
    simp only [Bool.and_eq_true, Bool.not_eq_true', decide_eq_true_eq, decide_eq_false_iff_not] at hn
    refine ⟨n, hn.1, ⟨hn.2.1, fun h => hn.2.2 ?_⟩, hj n⟩
    cases n with
    | nil => simp at h
    | cons c n => simp at h; subst h; exact ⟨n, rfl⟩
  · rintro ⟨n, hn, ⟨h1, h2⟩, rfl⟩
    refine ⟨n, List.mem_filter.2 ⟨hn, ?_⟩, hj n⟩
    simp only [Bool.and_eq_true, Bool.not_eq_true', decide_eq_true_eq, decide_eq_false_iff_not]
    refine ⟨h1, ?_⟩
    rintro ⟨r, rfl⟩
    exact h2 rfl

theorem globIn_nodup {fs : FileSystem} {p : List Char} (e : List Char) (h : (fs.entries p).Nodup) : (globIn fs p e).Nodup := by
  refine (h.filter _).map ?_
  intro a b hab
  unfold joinPath at hab
  split_ifs at hab
  · exact List.append_cancel_left hab
  · exact (List.cons.inj (List.append_cancel_left hab)).2

end Verif
