import Verif.Lemmas.ProblemFields
import Verif.Props.ProblemFile

/-! # Additional constraints in problem files (C66) -/

namespace Verif

open Spec

theorem field_line {float : List Char → Py ℚ} {f : CField} {l : List Char} (h : f.Line float l) : '\n' ∉ l := by
  have hn : ∀ {name sep w : List Char}, Seps sep → (∀ c ∈ w, Plain c) → '\n' ∉ name → '\n' ∉ name ++ sep ++ ' ' :: w := by
    intro name sep w hs hw hn h
    simp only [List.mem_append, List.mem_cons] at h
    rcases h with (h | h) | h | h
    · exact hn h
    · exact seps_not hs (by decide) (by decide) (by decide) h
    · exact absurd h (by decide)
    · exact (hw _ h).2.2 (by decide)
  cases f with
  | distance x =>
    obtain ⟨sep, w, hs, hv, rfl⟩ := h
    exact hn hs (value_plain hv) (by decide)
  | service x =>
    obtain ⟨sep, w, hs, hv, rfl⟩ := h
    exact hn hs (value_plain hv) (by decide)
  | vehicles z =>
    obtain ⟨sep, hs, rfl⟩ := h
    exact hn hs (fun c hc => showInt_all hc) (by decide)
  | other => exact h.1

/-- What a line changes. -/
def fieldStep (s : AddSt) : CField → AddSt
  | .distance x => { s with L := some x }
  | .service x => { s with ST := some x }
  | .vehicles z => { s with K := some z }
  | .other => s

theorem addLine_field {float : List Char → Py ℚ} {f : CField} {l : List Char} (h : f.Line float l) {s : AddSt}
    (hs : s.svc = false) : addLine float (l ++ ['\n']) s = .ok (fieldStep s f) := by
  unfold addLine
  rw [if_neg (by rw [hs]; simp)]
  dsimp only
  cases f with
  | distance x =>
    obtain ⟨sep, w, hs, hv, rfl⟩ := h
    exact addFields_distance hv hs s
  | service x =>
    obtain ⟨sep, w, hs, hv, rfl⟩ := h
    exact addFields_service hv hs s
  | vehicles z =>
    obtain ⟨sep, hs, rfl⟩ := h
    exact addFields_vehicles hs s
  | other => exact addFields_quiet (quiet_other h.2) s

theorem fieldStep_svc (s : AddSt) (f : CField) : (fieldStep s f).svc = s.svc := by cases f <;> rfl

theorem addLoop_fields {float : List Char → Py ℚ} {t : List (List Char)} {fs : List CField} {ls : List (List Char)}
    (h : List.Forall₂ (CField.Line float) fs ls) : ∀ {s : AddSt}, s.svc = false →
    addLoop float (ls.map (fun l => l ++ ['\n']) ++ t) s = addLoop float t (fs.foldl fieldStep s) := by
  induction h with
  | nil => intro s _; rfl
  | cons h _ ih =>
    intro s hs
    rw [List.map_cons, List.cons_append, addLoop, addLine_field h hs]
    dsimp only
    rw [ih (by rw [fieldStep_svc, hs])]
    rfl

theorem fields_fold (fs : List CField) : ∀ s : AddSt, fs.foldl fieldStep s =
    ⟨(lastVehicles fs).or s.K, (lastDistance fs).or s.L, (lastService fs).or s.ST, s.svc⟩ := by
  induction fs with
  | nil => intro s; rfl
  | cons f fs ih =>
    intro s
    rw [List.foldl_cons, ih]
    have e : ∀ {α : Type} (a : α) (l : List α), (a :: l).getLast? = l.getLast?.or (some a) := by
      intro α a l
      cases l with
      | nil => rfl
      | cons b l => rw [List.getLast?_cons_cons, List.getLast?_eq_some_getLast (by simp)]; rfl
    cases f <;> simp only [fieldStep, lastVehicles, lastDistance, lastService, List.filterMap_cons, e, Option.or_assoc, Option.some_or]

theorem readlines_textOf {ls : List (List Char)} (h : ∀ l ∈ ls, '\n' ∉ l) : readlines (textOf ls) = ls.map fun l => l ++ ['\n'] := by
  have := readlines_text [] h
  rw [List.append_nil] at this
  unfold textOf
  rw [this]
  exact List.append_nil _

theorem forall_field {float : List Char → Py ℚ} {fs : List CField} {ls : List (List Char)}
    (h : List.Forall₂ (CField.Line float) fs ls) : ∀ l ∈ ls, '\n' ∉ l := by
  induction h with
  | nil => simp
  | cons h _ ih =>
    intro l hl
    rcases List.mem_cons.1 hl with rfl | hl
    · exact field_line h
    · exact ih l hl

/-- C66. Of the fields for the limit on the route cost, the service time and the number of vehicles the last one of each kind
counts, wherever the lines are and whatever other lines there are. -/
theorem C66_fields {float : List Char → Py ℚ} {fs : List CField} {ls : List (List Char)}
    (h : List.Forall₂ (CField.Line float) fs ls) :
    read_TSBLIB_additional_constraints float (textOf ls) = .ok (lastVehicles fs, lastDistance fs, lastService fs) := by
  unfold read_TSBLIB_additional_constraints
  have := addLoop_fields (t := []) h (s := ⟨none, none, none, false⟩) rfl
  rw [List.append_nil] at this
  rw [readlines_textOf (forall_field h), this, fields_fold]
  simp only [Option.or_none]
  rfl

/-- C66. A field without a blank between the colon and the value is an error, though the other reader accepts this for its fields. -/
theorem C66_blank_needed {float : List Char → Py ℚ} (z : ℤ) :
    read_TSBLIB_additional_constraints float (textOf ["DISTANCE:".toList ++ showInt z]) = .error .valueError := by
  have hn : ∀ l ∈ ["DISTANCE:".toList ++ showInt z], '\n' ∉ l := by
    intro l hl
    rw [List.mem_singleton.1 hl]
    intro h
    rcases List.mem_append.1 h with h | h
    · exact absurd h (by decide)
    · exact (showInt_all h).2.2 (by decide)
  have hw : Word ("DISTANCE:".toList ++ showInt z) := by
    refine ⟨by simp, fun c hc => ?_⟩
    rcases List.mem_append.1 hc with h | h
    · exact (by decide : ∀ c ∈ "DISTANCE:".toList, isWS c = false) c h
    · exact plain_ws (showInt_all h)
  have o1 : occurs "DISTANCE".toList ("DISTANCE:".toList ++ showInt z ++ ['\n']) = true := by
    have : "DISTANCE:".toList ++ showInt z ++ ['\n'] = "DISTANCE".toList ++ (':' :: showInt z ++ ['\n']) := by simp
    rw [this]; exact field_has
  have hp : '.' ∉ "DISTANCE:".toList ++ showInt z ++ ['\n'] := by
    intro h
    simp only [List.mem_append] at h
    rcases h with (h | h) | h
    · exact absurd h (by decide)
    · exact showInt_point z h
    · exact absurd h (by decide)
  have hd : parseInt ("DISTANCE:".toList ++ showInt z) = .error .valueError := by
    unfold parseInt
    rw [word_strip hw]
    rfl
  have hlast : addLast float ("DISTANCE:".toList ++ showInt z ++ ['\n']) = .error .valueError := by
    unfold addLast lastWord
    rw [splitWS_end (by decide), splitWS_one hw]
    dsimp only [List.getLast?_singleton]
    show addNumber _ _ _ = _
    unfold addNumber
    rw [if_neg hp, hd]
    rfl
  unfold read_TSBLIB_additional_constraints
  rw [readlines_textOf hn, List.map_cons, addLoop]
  unfold addLine
  simp only [Bool.false_eq_true, if_false, addFields, o1, if_true, hlast]
  rfl

/-! ## The section of service times -/

theorem section_quiet (s : AddSt) {float : List Char → Py ℚ} (hs : s.svc = false) :
    addLine float ("SVC_TIME_SECTION".toList ++ ['\n']) s = .ok { s with svc := true } := by
  have o1 : occurs "DISTANCE".toList ("SVC_TIME_SECTION".toList ++ ['\n']) = false := by decide +kernel
  have o2 : occurs "SERVICE_TIME".toList ("SVC_TIME_SECTION".toList ++ ['\n']) = false := by decide +kernel
  have o3 : occurs "VEHICLES".toList ("SVC_TIME_SECTION".toList ++ ['\n']) = false := by decide +kernel
  have o4 : occurs "SVC_TIME_SECTION".toList ("SVC_TIME_SECTION".toList ++ ['\n']) = true := by decide +kernel
  unfold addLine
  rw [if_neg (by rw [hs]; simp)]
  simp only [addFields, o1, o2, o3, o4, Bool.false_eq_true, if_false, Bool.or_true]

theorem serviceLine_free {float : List Char → Py ℚ} {x : ℚ} {l : List Char} (h : ServiceLine float x l) : '\n' ∉ l := by
  obtain ⟨i, w, hv, rfl⟩ := h
  intro h
  simp only [List.mem_append, List.mem_cons] at h
  rcases h with h | h | h
  · exact absurd (showNat_digit h) (by decide)
  · exact absurd h (by decide)
  · exact (value_plain hv _ h).2.2 (by decide)

theorem addLine_service {float : List Char → Py ℚ} {x : ℚ} {l : List Char} (h : ServiceLine float x l) {s : AddSt}
    (hs : s.svc = true) : addLine float (l ++ ['\n']) s =
      if s.ST = none ∨ s.ST = some x then .ok { s with ST := some x } else .error .ioError := by
  have hfree := serviceLine_free h
  obtain ⟨i, w, hv, rfl⟩ := h
  have hw : splitWS (showNat i ++ ' ' :: w ++ ['\n']) = [showNat i, w] := by
    rw [splitWS_end (by decide), splitWS_append (by decide), splitWS_one (word_show i), splitWS_one (value_word hv)]
    rfl
  have hq : quiet (showNat i ++ ' ' :: w ++ ['\n']) = true := by
    refine quiet_plain fun c hc => ?_
    simp only [List.mem_append, List.mem_cons, List.not_mem_nil, or_false] at hc
    rcases hc with (hc | rfl | hc) | rfl
    · exact (digit_plain (showNat_digit hc)).1
    · decide
    · exact (value_plain hv c hc).1
    · decide
  unfold addLine
  rw [if_pos hs]
  unfold addService
  rw [hw]
  dsimp only
  rw [value_number hv Iff.rfl]
  dsimp only
  cases hST : s.ST with
  | none =>
    dsimp only
    rw [addFields_quiet hq, if_pos (.inl rfl)]
  | some st =>
    dsimp only
    by_cases hx : x = st
    · rw [if_neg (by simpa using hx), if_pos (.inr (by rw [hx]))]
      dsimp only
      rw [addFields_quiet hq]
    · rw [if_pos hx, if_neg (by simp only [reduceCtorEq, false_or, Option.some.injEq]; exact fun h => hx h.symm)]

theorem addLoop_services {float : List Char → Py ℚ} {t : List (List Char)} {xs : List ℚ} {ls : List (List Char)}
    (h : List.Forall₂ (ServiceLine float) xs ls) : ∀ {s : AddSt} {x : ℚ}, s.svc = true → (s.ST = none ∨ s.ST = some x) →
    (∀ y ∈ xs, y = x) →
    addLoop float (ls.map (fun l => l ++ ['\n']) ++ t) s = addLoop float t (if xs = [] then s else { s with ST := some x }) := by
  induction h with
  | nil => intro s x _ _ _; rfl
  | @cons y l xs ls h _ ih =>
    intro s x hs hS hx
    obtain rfl := hx y (by simp)
    rw [List.map_cons, List.cons_append, addLoop, addLine_service h hs, if_pos hS]
    dsimp only
    rw [ih (s := { s with ST := some y }) (x := y) hs (.inr rfl) (fun z hz => hx z (by simp [hz])), if_neg (List.cons_ne_nil y xs)]
    split_ifs <;> rfl

theorem addLoop_services_differ {float : List Char → Py ℚ} {t : List (List Char)} {xs : List ℚ} {ls : List (List Char)}
    (h : List.Forall₂ (ServiceLine float) xs ls) : ∀ {s : AddSt}, s.svc = true → ¬ (∃ x, (s.ST = none ∨ s.ST = some x) ∧ ∀ y ∈ xs, y = x) →
    addLoop float (ls.map (fun l => l ++ ['\n']) ++ t) s = .error .ioError := by
  induction h with
  | nil =>
    intro s _ hd
    refine absurd ?_ hd
    cases hS : s.ST with
    | none => exact ⟨0, .inl rfl, by simp⟩
    | some x => exact ⟨x, .inr rfl, by simp⟩
  | @cons y l xs ls h _ ih =>
    intro s hs hd
    rw [List.map_cons, List.cons_append, addLoop, addLine_service h hs]
    by_cases hS : s.ST = none ∨ s.ST = some y
    · rw [if_pos hS]
      dsimp only
      refine ih (s := { s with ST := some y }) hs ?_
      rintro ⟨x, hx, hall⟩
      rcases hx with hx | hx
      · cases hx
      · obtain rfl : y = x := by injection hx
        exact hd ⟨y, hS, fun z hz => by
          rcases List.mem_cons.1 hz with rfl | hz
          · rfl
          · exact hall z hz⟩
    · rw [if_neg hS]

theorem forall_service {float : List Char → Py ℚ} {xs : List ℚ} {ls : List (List Char)}
    (h : List.Forall₂ (ServiceLine float) xs ls) : ∀ l ∈ ls, '\n' ∉ l := by
  induction h with
  | nil => simp
  | cons h _ ih =>
    intro l hl
    rcases List.mem_cons.1 hl with rfl | hl
    · exact serviceLine_free h
    · exact ih l hl

theorem section_loop {float : List Char → Py ℚ} {fs : List CField} {ls es post : List (List Char)}
    (h : List.Forall₂ (CField.Line float) fs ls) (he : ∀ l ∈ es ++ post, '\n' ∉ l) :
    read_TSBLIB_additional_constraints float (textOf (ls ++ "SVC_TIME_SECTION".toList :: (es ++ post))) =
      (addLoop float (es.map (fun l => l ++ ['\n']) ++ post.map (fun l => l ++ ['\n']))
        ⟨lastVehicles fs, lastDistance fs, lastService fs, true⟩).map fun s => (s.K, s.L, s.ST) := by
  unfold read_TSBLIB_additional_constraints
  rw [readlines_textOf (by
    intro l hl
    rcases List.mem_append.1 hl with hl | hl
    · exact forall_field h l hl
    · rcases List.mem_cons.1 hl with rfl | hl
      · decide
      · exact he l hl)]
  rw [List.map_append, addLoop_fields h rfl, fields_fold, List.map_cons, addLoop, section_quiet _ rfl, List.map_append]
  simp only [Option.or_none]

/-- C66. A section with the same service time for all nodes, also for the depot, at the end of the file gives this service time,
if a field for the service time before it says the same. -/
theorem C66_section_partial {float : List Char → Py ℚ} {fs : List CField} {ls es : List (List Char)} {xs : List ℚ} {x : ℚ}
    (h : List.Forall₂ (CField.Line float) fs ls) (he : List.Forall₂ (ServiceLine float) xs es) (h0 : xs ≠ [])
    (hx : ∀ y ∈ xs, y = x) (hf : ∀ y, lastService fs = some y → y = x) :
    read_TSBLIB_additional_constraints float (textOf (ls ++ "SVC_TIME_SECTION".toList :: es)) =
      .ok (lastVehicles fs, lastDistance fs, some x) := by
  have := section_loop (post := []) h (es := es) (by rw [List.append_nil]; exact forall_service he)
  rw [List.append_nil] at this
  rw [this, List.map_nil, addLoop_services he (x := x) rfl ?_ hx, if_neg h0]
  · rfl
  · show lastService fs = none ∨ lastService fs = some x
    cases hS : lastService fs with
    | none => exact .inl rfl
    | some y => exact .inr (by rw [hf y hS])

/-- C66. Different service times raise an `IOError`, also if only the depot has another one. -/
theorem C66_section_differs {float : List Char → Py ℚ} {fs : List CField} {ls es post : List (List Char)} {xs : List ℚ}
    (h : List.Forall₂ (CField.Line float) fs ls) (he : List.Forall₂ (ServiceLine float) xs es) (hp : ∀ l ∈ post, '\n' ∉ l)
    (hx : ∃ y ∈ xs, ∃ z ∈ xs, y ≠ z) :
    read_TSBLIB_additional_constraints float (textOf (ls ++ "SVC_TIME_SECTION".toList :: (es ++ post))) = .error .ioError := by
  rw [section_loop h (by
    intro l hl
    rcases List.mem_append.1 hl with hl | hl
    · exact forall_service he l hl
    · exact hp l hl), addLoop_services_differ he rfl]
  · rfl
  · rintro ⟨x, -, hall⟩
    obtain ⟨y, hy, z, hz, hne⟩ := hx
    exact hne ((hall y hy).trans (hall z hz).symm)

theorem addFields_svc {float : List Char → Py ℚ} {l : List Char} {s s' : AddSt} (hs : s.svc = true)
    (h : addFields float l s = .ok s') : s'.svc = true := by
  unfold addFields at h
  split at h
  · cases h
  · split at h
    · cases h
    · split at h
      · cases h
      · injection h with h
        rw [← h]
        simp [hs]

theorem addLine_svc {float : List Char → Py ℚ} {l : List Char} {s s' : AddSt} (hs : s.svc = true)
    (h : addLine float l s = .ok s') : s'.svc = true ∧ (splitWS l).length = 2 := by
  unfold addLine at h
  rw [if_pos hs] at h
  unfold addService at h
  split at h
  · cases h
  · rename_i s1 h1
    split at h1
    · rename_i a b hw
      refine ⟨addFields_svc ?_ h, by rw [hw]; rfl⟩
      split at h1
      · cases h1
      · split at h1
        · split_ifs at h1
          injection h1 with h1
          rw [← h1]; exact hs
        · injection h1 with h1
          rw [← h1]; exact hs
    · cases h1

theorem addLoop_bad {float : List Char → Py ℚ} {bad : List Char} {t : List (List Char)} (hb : (splitWS bad).length ≠ 2) :
    ∀ (ls : List (List Char)) {s : AddSt}, s.svc = true → ∃ e, addLoop float (ls ++ bad :: t) s = .error e
  | [], s, hs => by
    rw [List.nil_append, addLoop]
    cases h : addLine float bad s with
    | error e => exact ⟨e, rfl⟩
    | ok s' => exact absurd (addLine_svc hs h).2 hb
  | l :: ls, s, hs => by
    rw [List.cons_append, addLoop]
    cases h : addLine float l s with
    | error e => exact ⟨e, rfl⟩
    | ok s' => exact addLoop_bad hb ls (addLine_svc hs h).1

/-- C66. After a section of service times every line needs two words. Any other line raises, such as the head of the next section,
the line `EOF`, or an empty line: the section cannot be read from a complete file. -/
theorem C66_section_last {float : List Char → Py ℚ} {fs : List CField} {ls mid post : List (List Char)} {bad : List Char}
    (h : List.Forall₂ (CField.Line float) fs ls) (hm : ∀ l ∈ mid ++ bad :: post, '\n' ∉ l) (hb : (splitWS bad).length ≠ 2) :
    ∃ e, read_TSBLIB_additional_constraints float (textOf (ls ++ "SVC_TIME_SECTION".toList :: (mid ++ bad :: post))) = .error e := by
  rw [section_loop h hm, List.map_cons]
  obtain ⟨e, he⟩ := addLoop_bad (float := float) (bad := bad ++ ['\n']) (t := post.map fun l => l ++ ['\n'])
    (by rw [splitWS_end (by decide)]; exact hb) (mid.map fun l => l ++ ['\n'])
    (s := ⟨lastVehicles fs, lastDistance fs, lastService fs, true⟩) rfl
  rw [he]
  exact ⟨e, rfl⟩

/-! ## Concrete cases -/

/-- A file as in the examples of the package. -/
def egLines : List (List Char) :=
  ["NAME : CMT06".toList, "DIMENSION : 51".toList, "DISTANCE : 200".toList, "VEHICLES: 5".toList, "SERVICE_TIME :\t 10".toList,
    "DISTANCE : 150".toList, "EOF".toList]

example : read_TSBLIB_additional_constraints egFloat (textOf egLines) = .ok (some 5, some 150, some 10) :=
  C66_fields (fs := [.other, .other, .distance 200, .vehicles 5, .service 10, .distance 150, .other])
    (.cons ⟨by decide, by decide +kernel⟩ (.cons ⟨by decide, by decide +kernel⟩
      (.cons ⟨" :".toList, ['2', '0', '0'], by unfold Seps; decide, .inl ⟨200, by decide +kernel, rfl⟩, by decide +kernel⟩
      (.cons ⟨":".toList, by unfold Seps; decide, by decide +kernel⟩
      (.cons ⟨" :\t".toList, ['1', '0'], by unfold Seps; decide, .inl ⟨10, by decide +kernel, rfl⟩, by decide +kernel⟩
      (.cons ⟨" :".toList, ['1', '5', '0'], by unfold Seps; decide, .inl ⟨150, by decide +kernel, rfl⟩, by decide +kernel⟩
      (.cons ⟨by decide, by decide +kernel⟩ .nil)))))))

example : read_TSBLIB_additional_constraints egFloat
    (textOf ["DISTANCE : 200".toList, "SVC_TIME_SECTION".toList, "1 10".toList, "2 10".toList]) = .ok (none, some 200, some 10) := by
  decide +kernel

/-- C66 is false for the service times as they are usually given, with none at the depot: the depot counts as well. -/
theorem C66_depot_false : read_TSBLIB_additional_constraints egFloat
    (textOf ["SVC_TIME_SECTION".toList, "1 0".toList, "2 10".toList, "3 10".toList]) = .error .ioError := by decide +kernel

/-- C66 is false for a section in a complete file. -/
theorem C66_end_false : read_TSBLIB_additional_constraints egFloat
    (textOf ["SVC_TIME_SECTION".toList, "1 10".toList, "2 10".toList, "EOF".toList]) = .error .valueError := by decide +kernel

/-- C66 is false for a remark that mentions the name of a field. -/
theorem C66_remark_false : read_TSBLIB_additional_constraints egFloat
    (textOf ["DISTANCE : 200".toList, "COMMENT : the DISTANCE is from Christofides".toList]) = .error .valueError := by decide +kernel

end Verif
