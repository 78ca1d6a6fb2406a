import Verif.Props.JsonTruncated

/-!
# C95: one JSON document per line

The texts written by `toJson` are put one below the other into a file (log files, "JSON lines"). Records contain arbitrary strings and a
crash may leave only a prefix of what has been written.
-/

namespace Verif
open JsonText

/-- what `std::getline` yields when called again and again: the lines ended by a line break, and what follows the last line break -/
def getLines : Str → List Str × Str
  | [] => ([], [])
  | c :: s =>
    let (ls, r) := getLines s
    if c = 0x0a then ([] :: ls, r)
    else match ls with
      | [] => ([], c :: r)
      | l :: ls => ((c :: l) :: ls, r)

/-- a file with one text per line -/
def linesFile (texts : List Str) : Str := texts.flatMap (· ++ [0x0a])

theorem getLines_rest {s : Str} (h : ∀ c ∈ s, c ≠ 0x0a) : getLines s = ([], s) := by
  induction s with
  | nil => rfl
  | cons c s ih =>
    simp only [getLines]
    rw [ih fun c' h' => h c' (List.mem_cons_of_mem _ h'), if_neg (h c List.mem_cons_self)]

theorem getLines_line {l : Str} (h : ∀ c ∈ l, c ≠ 0x0a) (s : Str) :
    getLines (l ++ 0x0a :: s) = (l :: (getLines s).1, (getLines s).2) := by
  induction l with
  | nil => simp [getLines]
  | cons c l ih =>
    simp only [List.cons_append, getLines]
    rw [ih fun c' h' => h c' (List.mem_cons_of_mem _ h'), if_neg (h c List.mem_cons_self)]

theorem getLines_cut (texts : List Str) (h : ∀ t ∈ texts, ∀ c ∈ t, c ≠ 0x0a) (cut : Str) (hc : cut <+: linesFile texts) :
    ∃ k, k ≤ texts.length ∧ (getLines cut).1 = texts.take k ∧
      ((k = texts.length ∧ (getLines cut).2 = []) ∨ ∃ t, texts[k]? = some t ∧ (getLines cut).2 <+: t) := by
  induction texts generalizing cut with
  | nil =>
    have : cut = [] := by simpa [linesFile] using hc
    subst this
    exact ⟨0, Nat.le_refl _, rfl, .inl ⟨rfl, rfl⟩⟩
  | cons t texts ih =>
    have ht := h t List.mem_cons_self
    obtain ⟨tail, htail⟩ := hc
    have htail : cut ++ tail = t ++ 0x0a :: linesFile texts := by rw [htail]; simp [linesFile]
    have within : cut <+: t → ∃ k, k ≤ (t :: texts).length ∧ (getLines cut).1 = (t :: texts).take k ∧
        ((k = (t :: texts).length ∧ (getLines cut).2 = []) ∨ ∃ t', (t :: texts)[k]? = some t' ∧ (getLines cut).2 <+: t') := by
      intro hp
      rw [getLines_rest fun c hc => ht c (hp.subset hc)]
      exact ⟨0, Nat.zero_le _, rfl, .inr ⟨t, rfl, hp⟩⟩
    rcases List.append_eq_append_iff.1 htail with ⟨d, hd, -⟩ | ⟨d, hd1, hd2⟩
    · exact within ⟨d, hd.symm⟩
    · cases d with
      | nil => exact within (by rw [hd1, List.append_nil]; exact List.prefix_refl t)
      | cons c d =>
        rw [List.cons_append, List.cons.injEq] at hd2
        obtain ⟨rfl, hd2⟩ := hd2
        obtain ⟨k, h1, h2, h3⟩ := ih (fun t' h' => h t' (List.mem_cons_of_mem _ h')) d ⟨tail, hd2.symm⟩
        rw [hd1, getLines_line ht]
        exact ⟨k + 1, Nat.succ_le_succ h1, by rw [List.take_succ_cons, h2], by
          rcases h3 with ⟨h3, h4⟩ | h3
          · exact .inl ⟨by rw [h3, List.length_cons], h4⟩
          · exact .inr (by simpa using h3)⟩

/-- The documents of a file with one document per line: not just a number, and all numbers survive printing and parsing -/
def LineDoc (D : Dbl) (j : Json) : Prop := (∀ x, j ≠ .num x) ∧ ∀ n ∈ numbers j, Printable D n

/-- **C95**: a file with one text per line is read back line by line, whatever line breaks strings and names of the documents contain. -/
theorem C95_read_line_by_line (D : Dbl) (hD : ∀ d, ∀ c ∈ D.print d, 0x20 ≤ c.toNat) (docs : List Json)
    (hn : ∀ j ∈ docs, ∀ n ∈ numbers j, Printable D n) :
    (getLines (linesFile (docs.map (printDoc D)))).2 = [] ∧
      (getLines (linesFile (docs.map (printDoc D)))).1.map (textParser D) = docs.map fun j => .ok (own j) := by
  induction docs with
  | nil => exact ⟨rfl, rfl⟩
  | cons j docs ih =>
    obtain ⟨h1, h2⟩ := ih fun j' h' => hn j' (List.mem_cons_of_mem _ h')
    have hl : ∀ c ∈ printDoc D j, c ≠ 0x0a := by
      rintro c hc rfl
      exact absurd (C52_no_control_characters D hD j _ hc) (by decide)
    have he : linesFile ((j :: docs).map (printDoc D)) = printDoc D j ++ 0x0a :: linesFile (docs.map (printDoc D)) := by
      simp [linesFile]
    rw [he, getLines_line hl]
    exact ⟨h1, by rw [List.map_cons, h2, C52_round_trip D j (hn j List.mem_cons_self), List.map_cons]⟩

/-- **C95**: wherever the file is cut, the complete lines are documents which have been written, in order, and nothing else. What follows
the last line break is either nothing, or the complete next document (only its line break is missing), or rejected by the parser - and it
contains no line break, so the documents written earlier are not affected by it. -/
theorem C95_crash (D : Dbl) (hD : ∀ d, ∀ c ∈ D.print d, 0x20 ≤ c.toNat) (hx : ∃ x, Printable D (.dbl x)) (docs : List Json)
    (hn : ∀ j ∈ docs, LineDoc D j) (cut : Str) (hc : cut <+: linesFile (docs.map (printDoc D))) :
    ∃ k, k ≤ docs.length ∧ (getLines cut).1.map (textParser D) = (docs.take k).map (fun j => .ok (own j)) ∧
      ((k = docs.length ∧ (getLines cut).2 = []) ∨
        ∃ j, docs[k]? = some j ∧ (textParser D (getLines cut).2 = .ok (own j) ∧ (getLines cut).2 = printDoc D j ∨
          ∃ e, textParser D (getLines cut).2 = .error e)) := by
  have hl : ∀ t ∈ docs.map (printDoc D), ∀ c ∈ t, c ≠ 0x0a := by
    intro t ht c hc
    obtain ⟨j, -, rfl⟩ := List.mem_map.1 ht
    rintro rfl
    exact absurd (C52_no_control_characters D hD j _ hc) (by decide)
  obtain ⟨k, h1, h2, h3⟩ := getLines_cut _ hl cut hc
  refine ⟨k, by simpa using h1, ?_, ?_⟩
  · rw [h2, ← List.map_take, List.map_map]
    refine List.map_congr_left fun j hj => ?_
    exact C52_round_trip D j (hn j (List.mem_of_mem_take hj)).2
  · rcases h3 with ⟨h3, h4⟩ | ⟨t, h3, h4⟩
    · exact .inl ⟨by simpa using h3, h4⟩
    · refine .inr ?_
      rw [List.getElem?_map, Option.map_eq_some_iff] at h3
      obtain ⟨j, hj, rfl⟩ := h3
      obtain ⟨g1, g2⟩ := hn j (List.mem_of_getElem? hj)
      refine ⟨j, hj, ?_⟩
      by_cases he : (getLines cut).2 = printDoc D j
      · exact .inl ⟨by rw [he]; exact C52_round_trip D j g2, he⟩
      · exact .inr (C64_truncated_document_rejected D j g1 (fun n hn => .inl (g2 n hn)) hx _ h4 (.inl he))

/-- **C95**: what is left after the last line break may be removed, or given a line break of its own: lines appended afterwards are read
like those before. Without that the next line would be glued to the incomplete one. -/
theorem C95_append_after_crash (D : Dbl) (hD : ∀ d, ∀ c ∈ D.print d, 0x20 ≤ c.toNat) (docs docs' : List Json)
    (hn : ∀ j ∈ docs, ∀ n ∈ numbers j, Printable D n) (hn' : ∀ j ∈ docs', ∀ n ∈ numbers j, Printable D n)
    (cut : Str) (hc : cut <+: linesFile (docs.map (printDoc D))) :
    ∃ k, k ≤ docs.length ∧
      (getLines (linesFile (getLines cut).1 ++ linesFile (docs'.map (printDoc D)))).1.map (textParser D) =
        (docs.take k ++ docs').map (fun j => .ok (own j)) ∧
      (getLines (cut ++ 0x0a :: linesFile (docs'.map (printDoc D)))).1.map (textParser D) =
        (docs.take k).map (fun j => .ok (own j)) ++ [textParser D (getLines cut).2] ++ docs'.map fun j => .ok (own j) := by
  have hl : ∀ t ∈ docs.map (printDoc D), ∀ c ∈ t, c ≠ 0x0a := by
    intro t ht c hc
    obtain ⟨j, -, rfl⟩ := List.mem_map.1 ht
    rintro rfl
    exact absurd (C52_no_control_characters D hD j _ hc) (by decide)
  obtain ⟨k, h1, h2, -⟩ := getLines_cut _ hl cut hc
  have hpre : ∀ (s rest : Str), (getLines (s ++ 0x0a :: rest)).1 = (getLines s).1 ++ (getLines s).2 :: (getLines rest).1 := by
    intro s rest
    induction s with
    | nil => simp [getLines]
    | cons c s ih =>
      simp only [List.cons_append, getLines]
      rcases hg : getLines s with ⟨ls, r⟩
      rcases hg' : getLines (s ++ 0x0a :: rest) with ⟨ls', r'⟩
      rw [hg, hg'] at ih
      simp only at ih
      subst ih
      by_cases hc : c = 0x0a
      · simp [hc]
      · cases ls <;> simp [hc]
  have hk : ((getLines cut).1).map (textParser D) = (docs.take k).map fun j => .ok (own j) := by
    rw [h2, ← List.map_take, List.map_map]
    refine List.map_congr_left fun j hj => ?_
    exact C52_round_trip D j (hn j (List.mem_of_mem_take hj))
  refine ⟨k, by simpa using h1, ?_, ?_⟩
  · have : linesFile (getLines cut).1 ++ linesFile (docs'.map (printDoc D)) = linesFile ((docs.take k ++ docs').map (printDoc D)) := by
      rw [h2]; simp [linesFile, List.map_take]
    rw [this]
    exact (C95_read_line_by_line D hD _ fun j hj => (List.mem_append.1 hj).elim (fun h => hn j (List.mem_of_mem_take h)) (hn' j)).2
  · rw [hpre, List.map_append, hk, List.map_cons, (C95_read_line_by_line D hD docs' hn').2, List.append_assoc]
    rfl

/-- **C95**: for the API: a text returned by `toJson` is one line (without the line break). -/
theorem C95_toJson_one_line (E : Env) (H : Heap) (D : Dbl) (hD : ∀ d, ∀ c ∈ D.print d, 0x20 ≤ c.toNat) (n : Nat) (t : Ty) (v : Val) (text : Str)
    (h : toJson E H D n t v () = .ok text ()) (rest : Str) :
    getLines (text ++ 0x0a :: rest) = (text :: (getLines rest).1, (getLines rest).2) := by
  refine getLines_line ?_ rest
  simp only [toJson] at h
  obtain ⟨j, -, h2⟩ := SM.bind_ok_iff.1 h
  cases h2
  rintro c hc rfl
  exact absurd (C52_no_control_characters D hD j _ hc) (by decide)

/-! ## examples -/

namespace LinesDemo
open TextDemo Demo

/-- two documents, with a string containing a line break -/
def docs : List Json := [.arr [.str (lit "a\nb"), .null], .obj [(⟨lit "k", .literal⟩, .bool true)]]

theorem dbl_no_control : ∀ d, ∀ c ∈ dbl.print d, 0x20 ≤ c.toNat := by
  intro d c hc
  simp only [dbl, List.mem_cons] at hc
  rcases hc with rfl | rfl | hc
  · decide
  · decide
  · exact decimal_printable _ c hc

theorem docs_ok : ∀ j ∈ docs, LineDoc dbl j := by
  intro j hj
  simp only [docs, List.mem_cons, List.not_mem_nil, or_false] at hj
  rcases hj with rfl | rfl
  · exact ⟨fun x h => (by cases h), fun n hn => by simp [numbers, numbersItems] at hn⟩
  · exact ⟨fun x h => (by cases h), fun n hn => by simp [numbers, numbersMembers] at hn⟩

example : linesFile (docs.map (printDoc dbl)) = lit "[\"a\\nb\",null]\n{\"k\":true}\n" := by decide +kernel

/-- Every cut of this file meets the hypotheses of `C95_crash`. -/
example (len : Nat) := C95_crash dbl dbl_no_control ⟨0, dbl_ok 0 (by decide)⟩ docs docs_ok
  ((linesFile (docs.map (printDoc dbl))).take len) (List.take_prefix _ _)

/-- the second line cut after six characters -/
example : let cut := (linesFile (docs.map (printDoc dbl))).take 19
    getLines cut = ([lit "[\"a\\nb\",null]"], lit "{\"k\":") ∧ ∃ e, textParser dbl (getLines cut).2 = .error e := by
  have h : getLines ((linesFile (docs.map (printDoc dbl))).take 19) = ([lit "[\"a\\nb\",null]"], lit "{\"k\":") := by decide +kernel
  refine ⟨h, C64_truncated_document_rejected dbl (.obj [(⟨lit "k", .literal⟩, .bool true)]) (fun x h => by cases h)
    (fun n hn => by simp [numbers, numbersMembers] at hn) ⟨0, dbl_ok 0 (by decide)⟩ _ ?_ (.inl ?_)⟩
  · rw [h]; decide +kernel
  · rw [h]; decide +kernel

/-- The hypothesis that documents are not just numbers is needed: "12" cut after one character is the number 1. -/
example : ∃ cut c, printDoc dbl (.num (.int 12)) = cut ++ [c] ∧ textParser dbl cut = .ok (.num (.int 1)) :=
  C64_truncated_number_accepted dbl 12 (by decide) (by decide)

end LinesDemo

end Verif
