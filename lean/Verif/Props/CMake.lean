import Verif.Lemmas.CMake
import Mathlib.Data.List.Nodup

/-!
# C77: invoking the generator via CMake's `add_reflection_generator_invocation`
-/

namespace Verif.CMake
open Verif.Cli (Parts semicolon parts_split)

/-! ## The function's arguments -/

/-- Arguments are assigned to the keyword before them: lists get all values of all sections with the keyword, other keywords the first
value of the last section having one. -/
theorem C77_arguments (ss : List Section) (h : ∀ s ∈ ss, s.WellFormed) :
    let p := parse (ss.flatMap fun s => s.keyword :: s.values)
    (∀ k ∈ multiKeywords, p.multi k = (ss.filter fun s => s.keyword = k).flatMap Section.values) ∧
    (∀ k ∈ singleKeywords, p.single k = ((ss.filter fun s => s.keyword = k ∧ s.values ≠ []).getLast?.bind fun s => s.values.head?).getD []) ∧
    (∀ k ∈ optionKeywords, k ∈ p.options ↔ ∃ s ∈ ss, s.keyword = k) := by
  intro p
  have hp : p = ss.foldl applySection .empty := parse_sections ss h .empty
  have hdis : ∀ k ∈ multiKeywords, k ∉ optionKeywords ∧ k ∉ singleKeywords := by decide
  have hdis' : ∀ k ∈ singleKeywords, k ∉ optionKeywords := by decide
  have key : ∀ q : Parsed, (∀ k ∈ multiKeywords, (ss.foldl applySection q).multi k = q.multi k ++ (ss.filter fun s => s.keyword = k).flatMap Section.values) ∧
      (∀ k ∈ singleKeywords, (ss.foldl applySection q).single k =
        ((ss.filter fun s => s.keyword = k ∧ s.values ≠ []).getLast?.bind fun s => s.values.head?).getD (q.single k)) ∧
      (∀ k ∈ optionKeywords, k ∈ (ss.foldl applySection q).options ↔ k ∈ q.options ∨ ∃ s ∈ ss, s.keyword = k) := by
    clear hp p
    induction ss with
    | nil => intro q; exact ⟨fun k _ => by simp, fun k _ => by simp, fun k _ => by simp⟩
    | cons s ss ih =>
      intro q
      obtain ⟨i1, i2, i3⟩ := ih (fun s hs => h s (List.mem_cons_of_mem _ hs)) (applySection q s)
      rw [List.foldl_cons]
      have hs := h s List.mem_cons_self
      refine ⟨fun k hk => ?_, fun k hk => ?_, fun k hk => ?_⟩
      · rw [i1 k hk]
        by_cases hks : s.keyword = k
        · subst hks
          simp [applySection, hdis _ hk]
        · have : (applySection q s).multi k = q.multi k := by
            unfold applySection
            split
            · rfl
            · split
              · split <;> rfl
              · simp [Ne.symm hks]
          simp [this, hks]
      · rw [i2 k hk]
        by_cases hks : s.keyword = k
        · subst hks
          cases hv : s.values with
          | nil => simp [applySection, hdis' _ hk, hk, hv]
          | cons v vs =>
            simp only [applySection, hdis' _ hk, hk, hv, if_true, if_false, List.filter_cons, true_and, ne_eq, reduceCtorEq,
              not_false_eq_true, decide_true]
            generalize hl : (List.filter (fun s' => decide (s'.keyword = s.keyword ∧ s'.values ≠ [])) ss) = l
            rcases List.eq_nil_or_concat l with rfl | ⟨l, x, rfl⟩
            · simp [hv]
            · have hx : x ∈ List.filter (fun s' => decide (s'.keyword = s.keyword ∧ s'.values ≠ [])) ss := by rw [hl]; simp
              have hx' : x.values ≠ [] := by
                have := (List.mem_filter.1 hx).2
                simp only [decide_eq_true_eq] at this
                exact this.2
              obtain ⟨w, ws, hw⟩ := List.exists_cons_of_ne_nil hx'
              simp [List.getLast?_append, List.getLast?_cons, hw]
        · have : (applySection q s).single k = q.single k := by
            unfold applySection
            split
            · rfl
            · split
              · split
                · rfl
                · simp [Ne.symm hks]
              · rfl
          simp [this, hks]
      · rw [i3 k hk]
        have : k ∈ (applySection q s).options ↔ k ∈ q.options ∨ s.keyword = k := by
          unfold applySection
          by_cases h1 : s.keyword ∈ optionKeywords
          · rw [if_pos h1]
            simp only [List.mem_cons]
            constructor
            · rintro (h | h)
              · exact .inr h.symm
              · exact .inl h
            · rintro (h | h)
              · exact .inr h
              · exact .inl h.symm
          · rw [if_neg h1]
            have hne : s.keyword ≠ k := by
              rintro rfl
              exact h1 hk
            split
            · split <;> simp [hne]
            · simp [hne]
        rw [this]
        simp only [List.mem_cons, exists_eq_or_imp, or_assoc]
  obtain ⟨k1, k2, k3⟩ := key .empty
  refine ⟨fun k hk => ?_, fun k hk => ?_, fun k hk => ?_⟩
  · rw [hp, k1 k hk]; rfl
  · rw [hp, k2 k hk]; rfl
  · rw [hp, k3 k hk]; simp [Parsed.empty]

/-- A limit: the option of the tool for the visibility of binary serialisers is only available under a misspelled name; the correctly spelled
one (like other misspelled keywords) and its value are taken as further input files, class names etc. -/
theorem C77_limit_binary_visibility (k : Str) (hk : k ∈ multiKeywords) (vs : List Str) (hvs : ∀ v ∈ vs, v ∉ keywords) (visibility : Str)
    (hv : visibility ∉ keywords) :
    (parse (k :: vs ++ [lit "BINARY_VISIBILITY", visibility])).multi k = vs ++ [lit "BINARY_VISIBILITY", visibility] ∧
    (parse (k :: vs ++ [lit "BINARY_VISIBILITY", visibility])).single (lit "BINARY_VISBILITY") = [] := by
  have hw : ∀ s ∈ [(⟨k, vs ++ [lit "BINARY_VISIBILITY", visibility]⟩ : Section)], s.WellFormed := by
    intro s hs
    rw [List.mem_singleton.1 hs]
    refine ⟨by simp [keywords, hk], fun v h => ?_⟩
    simp only [List.mem_append, List.mem_cons, List.not_mem_nil, or_false] at h
    rcases h with h | rfl | rfl
    · exact hvs v h
    · decide
    · exact hv
  have h := C77_arguments _ hw
  simp only [List.flatMap_cons, List.flatMap_nil, List.append_nil] at h
  refine ⟨by simpa using h.1 k hk, ?_⟩
  have hne : k ≠ lit "BINARY_VISBILITY" := by
    rintro rfl
    revert hk
    decide
  simpa [hne] using h.2.1 (lit "BINARY_VISBILITY") (by decide)

/-! ## Commands and output files -/

/-- the name `s` of a file without directory and extension (everything from the first dot on) -/
def Stem (file s : Str) : Prop :=
  ∃ dir ext, file = dir ++ s ++ ext ∧ (dir = [] ∨ ∃ d, dir = d ++ lit "/") ∧ (0x2f : UInt8) ∉ s ++ ext ∧ (0x2e : UInt8) ∉ s ∧
    (ext = [] ∨ ∃ e, ext = lit "." ++ e)

theorem takeWhile_stop {P : UInt8 → Bool} {a b : Str} (ha : ∀ c ∈ a, P c = true) (hb : b = [] ∨ ∃ c r, b = c :: r ∧ P c = false) :
    (a ++ b).takeWhile P = a := by
  rw [List.takeWhile_append_of_pos ha]
  rcases hb with rfl | ⟨c, r, rfl, hc⟩
  · simp
  · simp [List.takeWhile, hc]

theorem nameWE_stem {file s : Str} (h : Stem file s) : nameWE file = s := by
  obtain ⟨dir, ext, rfl, hd, hs, hdot, he⟩ := h
  unfold nameWE
  have h1 : (dir ++ s ++ ext).reverse.takeWhile (· != 0x2f) = (s ++ ext).reverse := by
    rw [List.append_assoc, List.reverse_append]
    refine takeWhile_stop (fun c hc => ?_) ?_
    · simp only [bne_iff_ne, ne_eq]
      rintro rfl
      exact hs (List.mem_reverse.1 hc)
    · rcases hd with rfl | ⟨d, rfl⟩
      · exact .inl rfl
      · exact .inr ⟨0x2f, d.reverse, by rw [show lit "/" = [0x2f] by decide]; simp, by decide⟩
  rw [h1, List.reverse_reverse]
  refine takeWhile_stop (fun c hc => ?_) ?_
  · simp only [bne_iff_ne, ne_eq]
    rintro rfl
    exact hdot hc
  · rcases he with rfl | ⟨e, rfl⟩
    · exact .inl rfl
    · exact .inr ⟨0x2e, e, by rw [show lit "." = [0x2e] by decide]; simp, by decide⟩

theorem addCommands_fst (S : Settings) (p : Parsed) (opts : List GenEx) (is : List Str) (vars : Vars) :
    (addCommands S p opts is vars).1 = is.map fun i => ⟨outputFile S p i, cliArguments S p opts i, i⟩ := by
  induction is generalizing vars with
  | nil => rfl
  | cons i is ih => simp [addCommands, ih]

/-- The directory of the output files: the one specified, or `reflection` within the build directory. -/
def OutputDir (S : Settings) (p : Parsed) (d : Str) : Prop :=
  (p.single (lit "OUTPUT_DIRECTORY") = [] ∧ d = S.binaryDir ++ lit "/reflection") ∨
  (p.single (lit "OUTPUT_DIRECTORY") = d ∧ d ≠ [] ∧ ¬ FalseConstant d)

theorem outputDirectory_eq {S : Settings} {p : Parsed} {d : Str} (h : OutputDir S p d) : outputDirectory S p = d := by
  unfold outputDirectory
  rcases h with ⟨h1, rfl⟩ | ⟨h1, h2, h3⟩
  · rw [if_pos (by rw [h1]; decide)]
  · rw [if_neg (fun h => ?_), h1]
    rw [h1, isOff_iff] at h
    exact h.elim h2 h3

/-- The function fails only if an include directory (of the cache variable) does not exist. Otherwise there is one command per input file, in
this order; the output file has the name of the input file but the extension `.h`. -/
theorem C77_commands (S : Settings) (args : List Str) (vars : Vars) :
    (addInvocation S args vars = none ↔ ∃ d ∈ S.includeDirs, S.isDirectory d = false) ∧
    ∀ cmds vars', addInvocation S args vars = some (cmds, vars') → ∀ dir, OutputDir S (parse args) dir →
      cmds.map Command.dependsOn = (parse args).multi (lit "INPUT_FILES") ∧
      ∀ c ∈ cmds, ∀ s, Stem c.dependsOn s → c.output = dir ++ lit "/" ++ s ++ lit ".h" := by
  unfold addInvocation clangOptions
  refine ⟨?_, ?_⟩
  · by_cases h : S.includeDirs.all S.isDirectory = true
    · simp only [h, if_true, Option.map_some, reduceCtorEq, false_iff]
      rintro ⟨d, h1, h2⟩
      have := List.all_eq_true.1 h d h1
      rw [h2] at this
      cases this
    · simp only [h, Bool.false_eq_true, if_false, Option.map_none, true_iff]
      simpa using h
  · intro cmds vars' h dir hdir
    split at h
    · simp only [Option.map_some, Option.some.injEq] at h
      have h1 := congrArg Prod.fst h
      dsimp only at h1
      rw [addCommands_fst] at h1
      subst h1
      refine ⟨by rw [List.map_map]; exact List.map_id' _, fun c hc s hs => ?_⟩
      obtain ⟨i, hi, rfl⟩ := List.mem_map.1 hc
      dsimp only at hs ⊢
      rw [outputFile, outputDirectory_eq hdir, nameWE_stem hs]
    · cases h

/-- The output files are different if (and only if) the names of the input files without directory and extension are. -/
theorem C77_outputs_distinct {S : Settings} {args : List Str} {vars vars' : Vars} {cmds : List Command}
    (h : addInvocation S args vars = some (cmds, vars')) (stem : Str → Str)
    (hs : ∀ i ∈ (parse args).multi (lit "INPUT_FILES"), Stem i (stem i)) :
    (cmds.map Command.output).Nodup ↔ (((parse args).multi (lit "INPUT_FILES")).map stem).Nodup := by
  unfold addInvocation at h
  obtain ⟨opts, -, h⟩ := Option.map_eq_some_iff.1 h
  have h1 := congrArg Prod.fst h
  dsimp only at h1
  rw [addCommands_fst] at h1
  subst h1
  rw [List.map_map]
  generalize hi : (parse args).multi (lit "INPUT_FILES") = is at hs
  have : is.map (Command.output ∘ fun i => ⟨outputFile S (parse args) i, cliArguments S (parse args) opts i, i⟩) =
      (is.map stem).map fun s => outputDirectory S (parse args) ++ lit "/" ++ s ++ lit ".h" := by
    rw [List.map_map]
    apply List.map_congr_left
    intro i h
    simp only [Function.comp_apply, outputFile, nameWE_stem (hs i h)]
  rw [this]
  refine List.nodup_map_iff fun a b h => ?_
  simpa [List.append_assoc] using h

theorem appendOutput_eq (lists : List Str) (out : Str) (vars : Vars) (v : Str) :
    appendOutput lists out vars v = vars v ++ List.replicate (lists.count v) out := by
  unfold appendOutput
  induction lists generalizing vars with
  | nil => simp
  | cons l ls ih =>
    rw [List.foldl_cons, ih]
    by_cases h : v = l
    · subst h
      simp [List.replicate_succ]
    · simp [h, List.count_cons, Ne.symm h]

/-- Every output file is appended to the variables specified, in the order of the input files; other variables are not changed. -/
theorem C77_output_lists {S : Settings} {args : List Str} {vars vars' : Vars} {cmds : List Command}
    (h : addInvocation S args vars = some (cmds, vars')) (hn : ((parse args).multi (lit "OUTPUT_LISTS")).Nodup) (v : Str) :
    (v ∈ (parse args).multi (lit "OUTPUT_LISTS") → vars' v = vars v ++ cmds.map Command.output) ∧
    (v ∉ (parse args).multi (lit "OUTPUT_LISTS") → vars' v = vars v) := by
  unfold addInvocation at h
  obtain ⟨opts, -, h'⟩ := Option.map_eq_some_iff.1 h
  clear h
  rename' h' => h
  generalize (parse args).multi (lit "INPUT_FILES") = is at h
  induction is generalizing vars cmds with
  | nil =>
    cases h
    simp
  | cons i is ih =>
    simp only [addCommands, Prod.mk.injEq] at h
    obtain ⟨rfl, h2⟩ := h
    obtain ⟨i1, i2⟩ := ih (vars := appendOutput ((parse args).multi (lit "OUTPUT_LISTS")) (outputFile S (parse args) i) vars) (Prod.ext rfl h2)
    refine ⟨fun hv => ?_, fun hv => ?_⟩
    · rw [i1 hv, appendOutput_eq, List.count_eq_one_of_mem hn hv]
      simp
    · rw [i2 hv, appendOutput_eq, List.count_eq_zero_of_not_mem hv]
      simp

/-! ## What the tool gets -/

theorem output_plain (S : Settings) (p : Parsed) (i : Str) : outputFile S p i ∉ cliOptions := by
  intro h
  have h1 : (outputFile S p i).getLast? = some 0x68 := by
    unfold outputFile
    rw [List.getLast?_append]
    rfl
  have h2 : ∀ o ∈ cliOptions, o.getLast? ≠ some 0x68 := by decide
  exact h2 _ h h1

section
variable {out inp : Str} {gens opts classes jv bv er : List Str} (hout : out ∉ cliOptions) (hinp : inp ∉ cliOptions)
  (hgens : ∀ v ∈ gens, v ∉ cliOptions) (hopts : ∀ v ∈ opts, v ∉ cliOptions) (hclasses : ∀ v ∈ classes, v ∉ cliOptions)
  (hjv : jv = [] ∨ ∃ v, v ∉ cliOptions ∧ jv = [lit "--json-visibility", v])
  (hbv : bv = [] ∨ ∃ v, v ∉ cliOptions ∧ bv = [lit "--binary-visibility", v])
  (her : er = [] ∨ er = [lit "--error-resilient"])
include hout hinp hgens hopts hclasses hjv hbv her

theorem toArgs_eq (exe : Str) :
    toArgs exe ([lit "--output-file", out, lit "--input-file", inp, lit "--generators"] ++ gens ++ [lit "--clang-opt"] ++ opts
        ++ [lit "--json-classes"] ++ classes ++ jv ++ bv ++ er) =
      ⟨exe, [inp], some out, some gens, some opts, !er.isEmpty, Gen.jsonConfig (some classes) jv[1]?, Gen.binaryConfig none bv[1]?⟩ := by
  generalize hL : [lit "--output-file", out, lit "--input-file", inp, lit "--generators"] ++ gens ++ [lit "--clang-opt"] ++ opts
        ++ [lit "--json-classes"] ++ classes ++ jv ++ bv ++ er = L
  have no {name : Str} (hname : name ∈ cliOptions) {l : List Str} (h : ∀ v ∈ l, v ∉ cliOptions) : name ∉ l := fun h' => h _ h' hname
  have ne {name v : Str} (hname : name ∈ cliOptions) (h : v ∉ cliOptions) : name ≠ v := by
    rintro rfl
    exact h hname
  have her' : er = [] ∨ ∃ o r, er = o :: r ∧ o ∈ cliOptions := by
    rcases her with h | h
    · exact .inl h
    · exact .inr ⟨_, _, h, by decide⟩
  have hbv' : bv ++ er = [] ∨ ∃ o r, bv ++ er = o :: r ∧ o ∈ cliOptions := by
    rcases hbv with rfl | ⟨v, hv, rfl⟩
    · exact her'
    · exact .inr ⟨_, _, rfl, by decide⟩
  have hjv' : jv ++ (bv ++ er) = [] ∨ ∃ o r, jv ++ (bv ++ er) = o :: r ∧ o ∈ cliOptions := by
    rcases hjv with rfl | ⟨v, hv, rfl⟩
    · exact hbv'
    · exact .inr ⟨_, _, rfl, by decide⟩
  have h1 : valuesOf (lit "--output-file") L = some [out] := by
    rw [show L = [] ++ lit "--output-file" :: ([out] ++ (lit "--input-file" :: inp :: lit "--generators" ::
      (gens ++ [lit "--clang-opt"] ++ opts ++ [lit "--json-classes"] ++ classes ++ jv ++ bv ++ er))) by rw [← hL]; simp]
    exact valuesOf_eq (by simp) (by simpa using hout) (.inr ⟨_, _, rfl, by decide⟩)
  have h2 : valuesOf (lit "--input-file") L = some [inp] := by
    rw [show L = [lit "--output-file", out] ++ lit "--input-file" :: ([inp] ++ (lit "--generators" ::
      (gens ++ [lit "--clang-opt"] ++ opts ++ [lit "--json-classes"] ++ classes ++ jv ++ bv ++ er))) by rw [← hL]; simp]
    refine valuesOf_eq ?_ (by simpa using hinp) (.inr ⟨_, _, rfl, by decide⟩)
    simp only [List.mem_cons, List.not_mem_nil, or_false, not_or]
    exact ⟨by decide, ne (by decide) hout⟩
  have h3 : valuesOf (lit "--generators") L = some gens := by
    rw [show L = [lit "--output-file", out, lit "--input-file", inp] ++ lit "--generators" :: (gens ++ (lit "--clang-opt" ::
      (opts ++ [lit "--json-classes"] ++ classes ++ jv ++ bv ++ er))) by rw [← hL]; simp]
    refine valuesOf_eq ?_ hgens (.inr ⟨_, _, rfl, by decide⟩)
    simp only [List.mem_cons, List.not_mem_nil, or_false, not_or]
    exact ⟨by decide, ne (by decide) hout, by decide, ne (by decide) hinp⟩
  have h4 : valuesOf (lit "--clang-opt") L = some opts := by
    rw [show L = ([lit "--output-file", out, lit "--input-file", inp, lit "--generators"] ++ gens) ++ lit "--clang-opt" ::
      (opts ++ (lit "--json-classes" :: (classes ++ jv ++ bv ++ er))) by rw [← hL]; simp]
    refine valuesOf_eq ?_ hopts (.inr ⟨_, _, rfl, by decide⟩)
    simp only [List.mem_append, List.mem_cons, List.not_mem_nil, or_false, not_or]
    exact ⟨⟨by decide, ne (by decide) hout, by decide, ne (by decide) hinp, by decide⟩, no (by decide) hgens⟩
  have h5 : valuesOf (lit "--json-classes") L = some classes := by
    rw [show L = ([lit "--output-file", out, lit "--input-file", inp, lit "--generators"] ++ gens ++ [lit "--clang-opt"] ++ opts) ++
      lit "--json-classes" :: (classes ++ (jv ++ (bv ++ er))) by rw [← hL]; simp]
    refine valuesOf_eq ?_ hclasses hjv'
    simp only [List.mem_append, List.mem_cons, List.not_mem_nil, or_false, not_or]
    exact ⟨⟨⟨⟨by decide, ne (by decide) hout, by decide, ne (by decide) hinp, by decide⟩, no (by decide) hgens⟩, by decide⟩,
      no (by decide) hopts⟩
  have base : ∀ {name : Str}, name ∈ cliOptions → name ∉ [lit "--output-file", lit "--input-file", lit "--generators", lit "--clang-opt", lit "--json-classes"] →
      name ∉ [lit "--output-file", out, lit "--input-file", inp, lit "--generators"] ++ gens ++ [lit "--clang-opt"] ++ opts
        ++ [lit "--json-classes"] ++ classes := by
    intro name hn hne
    simp only [List.mem_cons, List.not_mem_nil, or_false, not_or] at hne
    simp only [List.mem_append, List.mem_cons, List.not_mem_nil, or_false, not_or]
    exact ⟨⟨⟨⟨⟨⟨hne.1, ne hn hout, hne.2.1, ne hn hinp, hne.2.2.1⟩, no hn hgens⟩, hne.2.2.2.1⟩, no hn hopts⟩, hne.2.2.2.2⟩, no hn hclasses⟩
  have inbv : ∀ {name : Str}, name ∈ cliOptions → name ≠ lit "--binary-visibility" → name ∉ bv := by
    intro name hn hne
    rcases hbv with rfl | ⟨v, hv, rfl⟩
    · simp
    · simpa using ⟨hne, ne hn hv⟩
  have injv : ∀ {name : Str}, name ∈ cliOptions → name ≠ lit "--json-visibility" → name ∉ jv := by
    intro name hn hne
    rcases hjv with rfl | ⟨v, hv, rfl⟩
    · simp
    · simpa using ⟨hne, ne hn hv⟩
  have iner : ∀ {name : Str}, name ≠ lit "--error-resilient" → name ∉ er := by
    intro name hne
    rcases her with rfl | rfl
    · simp
    · simpa using hne
  have h6 : (valuesOf (lit "--json-visibility") L).bind List.head? = jv[1]? := by
    rcases hjv with h | ⟨v, hv, h⟩
    · subst h
      rw [valuesOf_none]
      · rfl
      · rw [← hL]
        simp only [List.append_nil, List.mem_append, not_or]
        have := base (name := lit "--json-visibility") (by decide) (by decide)
        simp only [List.mem_append, not_or] at this
        exact ⟨⟨this, inbv (by decide) (by decide)⟩, iner (by decide)⟩
    · rw [show L = ([lit "--output-file", out, lit "--input-file", inp, lit "--generators"] ++ gens ++ [lit "--clang-opt"] ++ opts
        ++ [lit "--json-classes"] ++ classes) ++ lit "--json-visibility" :: ([v] ++ (bv ++ er)) by rw [← hL, h]; simp]
      rw [valuesOf_eq (base (by decide) (by decide)) (by simpa using hv) hbv', h]
      rfl
  have h7 : (valuesOf (lit "--binary-visibility") L).bind List.head? = bv[1]? := by
    rcases hbv with h | ⟨v, hv, h⟩
    · subst h
      rw [valuesOf_none]
      · rfl
      · rw [← hL]
        simp only [List.append_nil, List.mem_append, not_or]
        have := base (name := lit "--binary-visibility") (by decide) (by decide)
        simp only [List.mem_append, not_or] at this
        exact ⟨⟨this, injv (by decide) (by decide)⟩, iner (by decide)⟩
    · rw [show L = ([lit "--output-file", out, lit "--input-file", inp, lit "--generators"] ++ gens ++ [lit "--clang-opt"] ++ opts
        ++ [lit "--json-classes"] ++ classes ++ jv) ++ lit "--binary-visibility" :: ([v] ++ er) by rw [← hL, h]; simp]
      rw [valuesOf_eq ?_ (by simpa using hv) her', h]
      · rfl
      · have := base (name := lit "--binary-visibility") (by decide) (by decide)
        rw [List.mem_append, not_or]
        exact ⟨this, injv (by decide) (by decide)⟩
  have h8 : (valuesOf (lit "--error-resilient") L).isSome = !er.isEmpty := by
    have hpre : lit "--error-resilient" ∉ [lit "--output-file", out, lit "--input-file", inp, lit "--generators"] ++ gens ++ [lit "--clang-opt"] ++ opts
        ++ [lit "--json-classes"] ++ classes ++ jv ++ bv := by
      have := base (name := lit "--error-resilient") (by decide) (by decide)
      rw [List.mem_append, not_or, List.mem_append, not_or]
      exact ⟨⟨this, injv (by decide) (by decide)⟩, inbv (by decide) (by decide)⟩
    rcases her with h | h
    · subst h
      rw [valuesOf_none]
      · rfl
      · rw [← hL, List.append_nil]
        exact hpre
    · rw [show L = ([lit "--output-file", out, lit "--input-file", inp, lit "--generators"] ++ gens ++ [lit "--clang-opt"] ++ opts
        ++ [lit "--json-classes"] ++ classes ++ jv ++ bv) ++ lit "--error-resilient" :: ([] ++ []) by rw [← hL, h]; simp]
      rw [valuesOf_eq hpre (by simp) (.inl rfl), h]
      rfl
  have h9 : valuesOf (lit "--binary-classes") L = none := by
    apply valuesOf_none
    rw [← hL]
    have := base (name := lit "--binary-classes") (by decide) (by decide)
    rw [List.mem_append, not_or, List.mem_append, not_or, List.mem_append, not_or]
    exact ⟨⟨⟨this, injv (by decide) (by decide)⟩, inbv (by decide) (by decide)⟩, iner (by decide)⟩
  simp only [toArgs, h1, h2, h3, h4, h5, h6, h7, h8, h9]
  rfl

end

/-- No value could be mistaken for an option of the tool (such as `--clang-opt`). -/
structure NoOptions (S : Settings) (p : Parsed) (props : Str → Str → Str) : Prop where
  inputs : ∀ v ∈ p.multi (lit "INPUT_FILES"), v ∉ cliOptions
  generators : ∀ v ∈ p.multi (lit "GENERATORS"), v ∉ cliOptions
  classes : ∀ v ∈ p.multi (lit "JSON_CLASSES"), v ∉ cliOptions
  options : ∀ v ∈ p.multi (lit "CLANG_OPTIONS"), v ∉ cliOptions
  visibilities : p.single (lit "JSON_VISIBILITY") ∉ cliOptions ∧ p.single (lit "BINARY_VISBILITY") ∉ cliOptions
  settings : S.resourceDir ∉ cliOptions ∧ S.triple ∉ cliOptions ∧ ∀ d ∈ S.includeDirs, d ∉ cliOptions
  properties : ∀ t n l, Items (props t n) l → ∀ x ∈ l, x ∉ cliOptions

theorem not_option_of_take {v pre : Str} (hpre : ∀ o ∈ cliOptions, o.take pre.length ≠ pre) : pre ++ v ∉ cliOptions := by
  intro h
  exact hpre _ h (by simp)

theorem propOption_plain {props : Str → Str → Str} {pre t n : Str} (hpre : semicolon ∉ pre)
    (h : ∀ l, Items (props t n) l → ∀ x ∈ l, pre ++ x ∉ cliOptions) : (propOption pre t n).eval props ∉ cliOptions := by
  intro ho
  have hi := items_elements (props t n)
  obtain ⟨r, hr⟩ := Contributes.exists pre (elements (props t n))
  have h1 := elements_propOption hpre hi hr
  have h2 : ∀ o ∈ cliOptions, Element o := by
    intro o ho'
    have : ∀ o ∈ cliOptions, o ≠ [] ∧ semicolon ∉ o := by decide
    exact this o ho'
  rw [elements_self (h2 _ ho)] at h1
  rcases hr with ⟨-, rfl⟩ | ⟨-, rfl⟩
  · cases h1
  · have hm : (propOption pre t n).eval props ∈ (elements (props t n)).map (pre ++ ·) := by rw [← h1]; exact List.mem_singleton.2 rfl
    obtain ⟨x, hx, he⟩ := List.mem_map.1 hm
    exact h _ hi x hx (by rw [he]; exact ho)

theorem targetOptions_plain {S : Settings} {p : Parsed} {props : Str → Str → Str} (h : NoOptions S p props) (t : Str) :
    ∀ e ∈ targetOptions t, e.eval props ∉ cliOptions := by
  intro e he
  simp only [targetOptions, List.mem_cons, List.not_mem_nil, or_false] at he
  rcases he with rfl | rfl | rfl | rfl | rfl
  · show (if isOff (props t (lit "CXX_STANDARD")) = true then [] else lit "-std=c++" ++ props t (lit "CXX_STANDARD")) ∉ cliOptions
    by_cases h' : isOff (props t (lit "CXX_STANDARD")) = true
    · rw [if_pos h']
      decide
    · rw [if_neg h']
      exact not_option_of_take (by decide)
  · exact propOption_plain (by simp) fun l hl x hx => by simpa using h.properties _ _ l hl x hx
  · exact propOption_plain (by simp) fun l hl x hx => by simpa using h.properties _ _ l hl x hx
  · exact propOption_plain (by decide) fun l hl x hx => not_option_of_take (by decide)
  · exact propOption_plain (by decide) fun l hl x hx => not_option_of_take (by decide)

theorem dependencyOptions_plain {S : Settings} {p : Parsed} {props : Str → Str → Str} (h : NoOptions S p props) (t : Str) :
    ∀ e ∈ dependencyOptions S t, e.eval props ∉ cliOptions := by
  intro e he
  unfold dependencyOptions at he
  split at he
  · simp only [List.mem_cons, List.not_mem_nil, or_false] at he
    rcases he with rfl | rfl | rfl
    · exact propOption_plain (by simp) fun l hl x hx => by simpa using h.properties _ _ l hl x hx
    · exact propOption_plain (by decide) fun l hl x hx => not_option_of_take (by decide)
    · exact propOption_plain (by decide) fun l hl x hx => not_option_of_take (by decide)
  · cases he

theorem clangOptions_plain {S : Settings} {p : Parsed} {props : Str → Str → Str} (h : NoOptions S p props) {opts : List GenEx}
    (ho : clangOptions S p = some opts) : ∀ v ∈ opts.map (GenEx.eval props), v ∉ cliOptions := by
  unfold clangOptions at ho
  split at ho
  · cases ho
    intro v hv
    obtain ⟨e, he, rfl⟩ := List.mem_map.1 hv
    simp only [List.mem_append] at he
    rcases he with (((((he | he) | he) | he) | he) | he) | he
    · obtain ⟨o, ho, rfl⟩ := List.mem_map.1 he
      exact h.options o ho
    · simp only [List.mem_cons, List.not_mem_nil, or_false] at he
      rcases he with rfl | rfl
      · show lit "-resource-dir" ∉ cliOptions
        decide
      · exact h.settings.1
    · split at he
      · cases he
      · simp only [List.mem_cons, List.not_mem_nil, or_false] at he
        rcases he with rfl | rfl | rfl | rfl | rfl | rfl
        · show lit "-target" ∉ cliOptions
          decide
        · exact h.settings.2.1
        · show lit "-Xclang" ∉ cliOptions
          decide
        · show lit "-triple" ∉ cliOptions
          decide
        · show lit "-Xclang" ∉ cliOptions
          decide
        · exact h.settings.2.1
    · obtain ⟨d, hd, he⟩ := List.mem_flatMap.1 he
      simp only [List.mem_cons, List.not_mem_nil, or_false] at he
      rcases he with rfl | rfl
      · show lit "-I" ∉ cliOptions
        decide
      · exact h.settings.2.2 d hd
    · split at he
      · rw [List.mem_singleton.1 he]
        show lit "-nostdinc" ∉ cliOptions
        decide
      · cases he
    · obtain ⟨t, -, he⟩ := List.mem_flatMap.1 he
      exact targetOptions_plain h t e he
    · obtain ⟨t, -, he⟩ := List.mem_flatMap.1 he
      exact dependencyOptions_plain h t e he
  · cases ho

/-- an argument which is not given if the value means "false" -/
def GivenAs (v : Str) (o : Option Str) : Prop := ((v = [] ∨ FalseConstant v) ∧ o = none) ∨ (v ≠ [] ∧ ¬ FalseConstant v ∧ o = some v)

theorem given_if (v name : Str) :
    GivenAs v (if isOff v = true then ([] : List Str) else [name, v])[1]? := by
  by_cases h : isOff v = true
  · exact .inl ⟨(isOff_iff v).1 h, by simp [h]⟩
  · refine .inr ?_
    rw [isOff_iff, not_or] at h
    exact ⟨h.1, h.2, by rw [if_neg (by rw [isOff_iff, not_or]; exact h)]; rfl⟩

theorem command_args {S : Settings} {args : List Str} {vars vars' : Vars} {cmds : List Command} {props : Str → Str → Str}
    (h : addInvocation S args vars = some (cmds, vars')) (hp : NoOptions S (parse args) props) :
    ∃ opts, clangOptions S (parse args) = some opts ∧ ∀ c ∈ cmds, ∃ jv bv, GivenAs ((parse args).single (lit "JSON_VISIBILITY")) jv ∧
      GivenAs ((parse args).single (lit "BINARY_VISBILITY")) bv ∧ c.dependsOn ∈ (parse args).multi (lit "INPUT_FILES") ∧
      toArgs S.executable (c.arguments.map (GenEx.eval props)) =
        ⟨S.executable, [c.dependsOn], some c.output, some ((parse args).multi (lit "GENERATORS")), some (opts.map (GenEx.eval props)),
          (parse args).options.contains (lit "ERROR_RESILIENT"), Gen.jsonConfig (some ((parse args).multi (lit "JSON_CLASSES"))) jv,
          Gen.binaryConfig none bv⟩ := by
  unfold addInvocation at h
  obtain ⟨opts, ho, h'⟩ := Option.map_eq_some_iff.1 h
  refine ⟨opts, ho, fun c hc => ?_⟩
  have h1 := congrArg Prod.fst h'
  dsimp only at h1
  rw [addCommands_fst] at h1
  subst h1
  obtain ⟨i, hi, rfl⟩ := List.mem_map.1 hc
  dsimp only
  generalize parse args = p at *
  refine ⟨_, _, given_if _ (lit "--json-visibility"), given_if _ (lit "--binary-visibility"), hi, ?_⟩
  have hmap : (cliArguments S p opts i).map (GenEx.eval props) =
      [lit "--output-file", outputFile S p i, lit "--input-file", i, lit "--generators"] ++ p.multi (lit "GENERATORS") ++ [lit "--clang-opt"]
        ++ opts.map (GenEx.eval props) ++ [lit "--json-classes"] ++ p.multi (lit "JSON_CLASSES")
        ++ (if isOff (p.single (lit "JSON_VISIBILITY")) = true then [] else [lit "--json-visibility", p.single (lit "JSON_VISIBILITY")])
        ++ (if isOff (p.single (lit "BINARY_VISBILITY")) = true then [] else [lit "--binary-visibility", p.single (lit "BINARY_VISBILITY")])
        ++ (if p.options.contains (lit "ERROR_RESILIENT") = true then [lit "--error-resilient"] else []) := by
    have ht : ∀ l : List Str, (l.map GenEx.text).map (GenEx.eval props) = l := by
      intro l
      rw [List.map_map]
      exact List.map_id' l
    unfold cliArguments
    simp only [List.map_append, ht, List.map_cons, List.map_nil, GenEx.eval]
    congr 1
    · congr 1
      · congr 1
        split <;> rfl
      · split <;> rfl
    · split <;> rfl
  rw [hmap, toArgs_eq (output_plain S p i) (hp.inputs i hi) hp.generators (clangOptions_plain hp ho) hp.classes]
  · congr 1
    by_cases he : p.options.contains (lit "ERROR_RESILIENT") = true
    · rw [if_pos he, he]; rfl
    · rw [if_neg he, Bool.not_eq_true] at *
      rw [he]; rfl
  · by_cases hv : isOff (p.single (lit "JSON_VISIBILITY")) = true
    · exact .inl (by rw [if_pos hv])
    · exact .inr ⟨_, hp.visibilities.1, by rw [if_neg hv]⟩
  · by_cases hv : isOff (p.single (lit "BINARY_VISBILITY")) = true
    · exact .inl (by rw [if_pos hv])
    · exact .inr ⟨_, hp.visibilities.2, by rw [if_neg hv]⟩
  · by_cases hv : p.options.contains (lit "ERROR_RESILIENT") = true
    · exact .inr (by rw [if_pos hv])
    · exact .inl (by rw [if_neg hv])

/-- The tool gets what has been specified: input and output file, generators, additional classes, visibilities and whether it is error
resilient. Additional classes for binary serialisation can not be specified. -/
theorem C77_tool_arguments {S : Settings} {args : List Str} {vars vars' : Vars} {cmds : List Command} {props : Str → Str → Str}
    (h : addInvocation S args vars = some (cmds, vars')) (hp : NoOptions S (parse args) props) (c : Command) (hc : c ∈ cmds) :
    let a := toArgs S.executable (c.arguments.map (GenEx.eval props))
    a.executable = S.executable ∧ a.inputFiles = [c.dependsOn] ∧ a.outputFile = some c.output ∧
    a.generators = some ((parse args).multi (lit "GENERATORS")) ∧ (a.errorResilient = true ↔ lit "ERROR_RESILIENT" ∈ (parse args).options) ∧
    (∃ jv, GivenAs ((parse args).single (lit "JSON_VISIBILITY")) jv ∧ a.json = Gen.jsonConfig (some ((parse args).multi (lit "JSON_CLASSES"))) jv) ∧
    (∃ bv, GivenAs ((parse args).single (lit "BINARY_VISBILITY")) bv ∧ a.binary = Gen.binaryConfig none bv) := by
  obtain ⟨opts, -, h'⟩ := command_args h hp
  obtain ⟨jv, bv, h1, h2, -, h3⟩ := h' c hc
  intro a
  have ha : a = _ := h3
  rw [ha]
  exact ⟨rfl, rfl, rfl, rfl, by simp, ⟨jv, h1, rfl⟩, ⟨bv, h2, rfl⟩⟩

/-! ## What Clang gets -/

theorem flatMap_text {l : List Str} (h : ∀ x ∈ l, Element x) (props : Str → Str → Str) :
    (l.map GenEx.text).flatMap (fun e => elements (e.eval props)) = l := by
  induction l with
  | nil => rfl
  | cons x xs ih =>
    rw [List.map_cons, List.flatMap_cons, ih fun y hy => h y (List.mem_cons_of_mem _ hy)]
    simp only [GenEx.eval, elements_self (h x List.mem_cons_self)]
    rfl

theorem flatMap_targetOptions {props : Str → Str → Str} {t : Str} {r : List Str} (h : TargetOptions props t r) :
    (targetOptions t).flatMap (fun e => elements (e.eval props)) = r := by
  obtain ⟨std, fs, os, ds, is, fs', os', ds', is', h0, ⟨h1, h1'⟩, ⟨h2, h2'⟩, ⟨h3, h3'⟩, ⟨h4, h4'⟩, rfl⟩ := h
  have hstd : elements (GenEx.eval props (.ifBool (.property t (lit "CXX_STANDARD")) (.cat (.text (lit "-std=c++")) (.property t (lit "CXX_STANDARD"))))) = std := by
    show elements (if isOff (props t (lit "CXX_STANDARD")) = true then [] else lit "-std=c++" ++ props t (lit "CXX_STANDARD")) = std
    rcases h0 with ⟨h, rfl⟩ | ⟨h, rfl⟩
    · rw [h]
      decide
    · generalize props t (lit "CXX_STANDARD") = v at h
      have : ∀ v ∈ [lit "98", lit "11", lit "14", lit "17", lit "20", lit "23", lit "26"],
          elements (if isOff v = true then [] else lit "-std=c++" ++ v) = [lit "-std=c++" ++ v] := by decide
      exact this v h
  simp only [targetOptions, List.flatMap_cons, List.flatMap_nil, hstd, elements_propOption (by simp) h1 h1', elements_propOption (by simp) h2 h2',
    elements_propOption (by decide) h3 h3', elements_propOption (by decide) h4 h4', List.append_nil, List.append_assoc]

theorem flatMap_dependencyOptions {S : Settings} {props : Str → Str → Str} {t : Str} {r : List Str}
    (h : DependencyOptions S.isTarget props t r) : (dependencyOptions S t).flatMap (fun e => elements (e.eval props)) = r := by
  unfold dependencyOptions
  rcases h with ⟨h, rfl⟩ | ⟨h, os, ds, is, os', ds', is', ⟨h2, h2'⟩, ⟨h3, h3'⟩, ⟨h4, h4'⟩, rfl⟩
  · simp [h]
  · simp only [h, if_true, List.flatMap_cons, List.flatMap_nil, elements_propOption (by simp) h2 h2',
      elements_propOption (by decide) h3 h3', elements_propOption (by decide) h4 h4', List.append_nil, List.append_assoc]

theorem flatMap_flatMap_eq {α β : Type} (l : List Str) (f : Str → List α) (g : α → List β) (r : Str → List β)
    (h : ∀ t ∈ l, (f t).flatMap g = r t) : (l.flatMap f).flatMap g = l.flatMap r := by
  rw [List.flatMap_assoc]
  induction l with
  | nil => rfl
  | cons t ts ih =>
    rw [List.flatMap_cons, List.flatMap_cons, h t List.mem_cons_self, ih fun t ht => h t (List.mem_cons_of_mem _ ht)]

/-- Clang gets the options specified via `CLANG_OPTIONS`, the resource directory, the platform triple, the include directories of the cache
variable and the flags, options, definitions and include directories of the targets and dependencies, in this order, each as one
argument, followed by the input file. -/
theorem C77_clang_arguments {S : Settings} {args : List Str} {vars vars' : Vars} {cmds : List Command} {props : Str → Str → Str}
    (h : addInvocation S args vars = some (cmds, vars')) (hp : NoOptions S (parse args) props)
    (hopts : ∀ o ∈ (parse args).multi (lit "CLANG_OPTIONS"), Element o) (hdir : Element S.resourceDir)
    (htriple : S.triple = [] ∨ (Element S.triple ∧ ¬ FalseConstant S.triple)) (hinc : ∀ d ∈ S.includeDirs, Element d)
    (targetOpts depOpts : Str → List Str)
    (htargets : ∀ t ∈ (parse args).multi (lit "CLANG_OPTIONS_FROM_TARGETS"), TargetOptions props t (targetOpts t))
    (hdeps : ∀ t ∈ (parse args).multi (lit "CLANG_OPTIONS_FROM_DEPENDENCIES"), DependencyOptions S.isTarget props t (depOpts t))
    (c : Command) (hc : c ∈ cmds) :
    Cli.makeClangArgs (toArgs S.executable (c.arguments.map (GenEx.eval props))) =
      [S.executable, lit "-x", lit "c++", lit "-Wno-pragma-once-outside-header", lit "-std=c++14", lit "-fsyntax-only",
        lit "-DREFLECTIVE_RAPIDJSON_GENERATOR"]
      ++ ((parse args).multi (lit "CLANG_OPTIONS")
        ++ [lit "-resource-dir", S.resourceDir]
        ++ (if S.triple = [] then [] else
          [lit "-target", S.triple, lit "-Xclang", lit "-triple", lit "-Xclang", S.triple])
        ++ S.includeDirs.flatMap (fun d => [lit "-I", d])
        ++ (if S.crossCompiling then [lit "-nostdinc"] else [])
        ++ ((parse args).multi (lit "CLANG_OPTIONS_FROM_TARGETS")).flatMap targetOpts
        ++ ((parse args).multi (lit "CLANG_OPTIONS_FROM_DEPENDENCIES")).flatMap depOpts)
      ++ [c.dependsOn] := by
  obtain ⟨opts, ho, h'⟩ := command_args h hp
  obtain ⟨jv, bv, -, -, -, h3⟩ := h' c hc
  rw [h3]
  have hcl : ∀ a : Cli.Args, a.clangOpt = some (opts.map (GenEx.eval props)) → Cli.clangOptions a = opts.flatMap fun e => elements (e.eval props) := by
    intro a ha
    simp only [Cli.clangOptions, ha]
    rw [List.flatMap_map]
    rfl
  unfold Cli.makeClangArgs
  rw [hcl _ rfl]
  dsimp only
  congr 1
  congr 1
  unfold clangOptions at ho
  split at ho
  · cases ho
    have e1 : ([GenEx.text (lit "-resource-dir"), GenEx.text S.resourceDir]).flatMap (fun e => elements (e.eval props)) = [lit "-resource-dir", S.resourceDir] :=
      flatMap_text (l := [lit "-resource-dir", S.resourceDir]) (by
        intro x hx
        simp only [List.mem_cons, List.not_mem_nil, or_false] at hx
        rcases hx with rfl | rfl
        · exact ⟨by decide, by decide⟩
        · exact hdir) props
    have e2 : (if isOff S.triple = true then ([] : List GenEx) else
        [.text (lit "-target"), .text S.triple, .text (lit "-Xclang"), .text (lit "-triple"), .text (lit "-Xclang"), .text S.triple]).flatMap (fun e => elements (e.eval props)) =
        if S.triple = [] then [] else [lit "-target", S.triple, lit "-Xclang", lit "-triple", lit "-Xclang", S.triple] := by
      rcases htriple with ht | ⟨ht, ht'⟩
      · rw [if_pos ((isOff_iff _).2 (.inl ht)), if_pos ht]
        rfl
      · rw [if_neg (fun h => ((isOff_iff _).1 h).elim ht.1 ht'), if_neg ht.1]
        exact flatMap_text (l := [lit "-target", S.triple, lit "-Xclang", lit "-triple", lit "-Xclang", S.triple]) (by
          intro x hx
          simp only [List.mem_cons, List.not_mem_nil, or_false] at hx
          rcases hx with rfl | rfl | rfl | rfl | rfl | rfl
          · exact ⟨by decide, by decide⟩
          · exact ht
          · exact ⟨by decide, by decide⟩
          · exact ⟨by decide, by decide⟩
          · exact ⟨by decide, by decide⟩
          · exact ht) props
    have e3 : (S.includeDirs.flatMap (fun d => [GenEx.text (lit "-I"), GenEx.text d])).flatMap (fun e => elements (e.eval props)) =
        S.includeDirs.flatMap (fun d => [lit "-I", d]) := by
      refine flatMap_flatMap_eq _ _ _ _ fun d hd => ?_
      exact flatMap_text (l := [lit "-I", d]) (by
        intro x hx
        simp only [List.mem_cons, List.not_mem_nil, or_false] at hx
        rcases hx with rfl | rfl
        · exact ⟨by decide, by decide⟩
        · exact hinc _ hd) props
    have e4 : (if S.crossCompiling = true then [GenEx.text (lit "-nostdinc")] else []).flatMap (fun e => elements (e.eval props)) =
        if S.crossCompiling = true then [lit "-nostdinc"] else [] := by
      split
      · exact flatMap_text (l := [lit "-nostdinc"]) (by
          intro x hx
          rw [List.mem_singleton.1 hx]
          exact ⟨by decide, by decide⟩) props
      · rfl
    simp only [List.flatMap_append, flatMap_text hopts, e1, e2, e3, e4,
      flatMap_flatMap_eq _ targetOptions _ targetOpts fun t ht => flatMap_targetOptions (htargets t ht),
      flatMap_flatMap_eq _ (dependencyOptions S) _ depOpts fun t ht => flatMap_dependencyOptions (hdeps t ht)]
  · cases ho

/-! ## Output files -/

/-- running commands one after the other -/
def runAll (S : Settings) (props : Str → Str → Str) (clang : List Str → Cli.ClangResult) (cs : List Command) (w : Cli.World) : Cli.World :=
  cs.foldl (fun w c => (c.run S props clang w).world) w

theorem canOpen_main (clang : List Str → Cli.ClangResult) (a : Cli.Args) (w : Cli.World) : (Cli.main clang a w).world.canOpen = w.canOpen := by
  unfold Cli.main
  cases a.outputFile with
  | none =>
    dsimp only
    cases Cli.addGenerators a with
    | none => rfl
    | some gs => dsimp only; cases clang (Cli.makeClangArgs a) <;> rfl
  | some f =>
    dsimp only
    split
    · rename_i h
      split at h
      · cases h
      · rfl
    · rename_i h
      split at h
      · cases h
        cases Cli.addGenerators a with
        | none => rfl
        | some gs => dsimp only; cases clang (Cli.makeClangArgs a) <;> rfl
      · cases h

/-- After all commands have been run (in any order), each output file contains the code generated by the specified generators for its
input file, provided that the output files are different and can be written, the generators exist and Clang can parse the files.
If no generators are specified, the files are empty. -/
theorem C77_output_files {S : Settings} {args : List Str} {vars vars' : Vars} {cmds : List Command} {props : Str → Str → Str}
    (h : addInvocation S args vars = some (cmds, vars')) (hp : NoOptions S (parse args) props) (hn : (cmds.map Command.output).Nodup)
    (hgen : ∀ g ∈ (parse args).multi (lit "GENERATORS"), Cli.Known g) (clang : List Str → Cli.ClangResult) (w : Cli.World)
    (hopen : ∀ c ∈ cmds, w.canOpen c.output = true)
    (tu : Command → Gen.TU) (diags : Command → List Diag.Diagnostic)
    (hclang : ∀ c ∈ cmds, clang (Cli.makeClangArgs (toArgs S.executable (c.arguments.map (GenEx.eval props)))) = .unit (tu c) (diags c))
    (order : List Command) (horder : order.Perm cmds) :
    (∀ c ∈ cmds, ∃ text, (runAll S props clang order w).files c.output = some text ∧
      text = (((parse args).multi (lit "GENERATORS")).map
        (Cli.textFor (toArgs S.executable (c.arguments.map (GenEx.eval props))) (tu c))).flatten) ∧
    (∀ f, f ∉ cmds.map Command.output → (runAll S props clang order w).files f = w.files f) := by
  have hmem : ∀ c, c ∈ order ↔ c ∈ cmds := fun c => horder.mem_iff
  have hno : (order.map Command.output).Nodup := (horder.map _).nodup_iff.2 hn
  have hf : ∀ f, f ∉ cmds.map Command.output ↔ f ∉ order.map Command.output := fun f => by rw [(horder.map _).mem_iff]
  simp only [hf, ← hmem] at hopen hclang ⊢
  have hargs : ∀ c ∈ order, (toArgs S.executable (c.arguments.map (GenEx.eval props))).outputFile = some c.output ∧
      (toArgs S.executable (c.arguments.map (GenEx.eval props))).generators = some ((parse args).multi (lit "GENERATORS")) := fun c hc => by
    have := C77_tool_arguments h hp c ((hmem c).1 hc)
    exact ⟨this.2.2.1, this.2.2.2.1⟩
  clear horder hf hmem hn
  induction order generalizing w with
  | nil => exact ⟨fun c hc => (by cases hc), fun f _ => rfl⟩
  | cons d ds ih =>
    have hnd : d.output ∉ ds.map Command.output ∧ (ds.map Command.output).Nodup := by simpa using hno
    obtain ⟨ho, hg⟩ := hargs d List.mem_cons_self
    have hcan : ∀ c ∈ ds, (d.run S props clang w).world.canOpen c.output = true := fun c hc => by
      rw [Command.run, canOpen_main]
      exact hopen c (List.mem_cons_of_mem _ hc)
    obtain ⟨i1, i2⟩ := ih (d.run S props clang w).world hnd.2 hcan (fun c hc => hclang c (List.mem_cons_of_mem _ hc))
      (fun c hc => hargs c (List.mem_cons_of_mem _ hc))
    have hrun : runAll S props clang (d :: ds) w = runAll S props clang ds (d.run S props clang w).world := rfl
    rw [hrun]
    have hop : Cli.Openable (toArgs S.executable (d.arguments.map (GenEx.eval props))) w := by
      intro f hf
      rw [ho] at hf
      cases hf
      exact hopen d List.mem_cons_self
    have hnames : (toArgs S.executable (d.arguments.map (GenEx.eval props))).names = (parse args).multi (lit "GENERATORS") := by
      rw [Cli.Args.names, hg]
      rfl
    have hr := Cli.C51_run clang _ w hop (by rw [hnames]; exact hgen) (tu d) (diags d) (hclang d List.mem_cons_self)
    have hother := (Cli.C51_only_output_changed clang (toArgs S.executable (d.arguments.map (GenEx.eval props))) w).1
    refine ⟨fun c hc => ?_, fun f hf => ?_⟩
    · rcases List.mem_cons.1 hc with rfl | hc
      · rw [i2 _ hnd.1]
        have h2 := hr.2.1
        simp only [Cli.output, Cli.outputBefore, ho, List.nil_append, hnames] at h2
        have hsome : ((c.run S props clang w).world.files c.output).isSome := by
          have hcan' : w.canOpen c.output = true := hopen c List.mem_cons_self
          unfold Command.run Cli.main
          rw [ho]
          simp only [hcan', if_true]
          cases Cli.addGenerators (toArgs S.executable (c.arguments.map (GenEx.eval props))) with
          | none => simp
          | some gs =>
            dsimp only
            cases clang (Cli.makeClangArgs (toArgs S.executable (c.arguments.map (GenEx.eval props)))) <;> simp [Cli.World.write]
        obtain ⟨text, ht⟩ := Option.isSome_iff_exists.1 hsome
        refine ⟨text, ht, ?_⟩
        rw [← h2]
        have ht' : (Cli.main clang (toArgs S.executable (c.arguments.map (GenEx.eval props))) w).world.files c.output = some text := ht
        rw [ht']
        rfl
      · exact i1 c hc
    · simp only [List.map_cons, List.mem_cons, not_or] at hf
      rw [i2 f hf.2]
      exact hother f (by rw [ho]; simpa using Ne.symm hf.1)

/-- A limit: a list of definitions (include directories, …) consisting of one element such as `N` or `NO`, or the last element of which
ends with `-NOTFOUND`, is ignored as a whole. -/
theorem C77_limit_off {props : Str → Str → Str} {pre t n : Str} {l : List Str} (hl : Items (props t n) l) (hoff : Off l) :
    (propOption pre t n).eval props = [] := by
  rw [eval_propOption, hl.eq, if_pos ((isOff_joined fun x hx => hl.element hx).2 hoff)]

/-! ## The example of the README -/

namespace Demo

def settings : Settings where
  executable := lit "/usr/bin/reflective_rapidjson_generator"
  resourceDir := lit "/usr/lib/clang/18"
  includeDirs := [lit "/opt/include"]
  triple := lit "x86_64-w64-mingw32"
  crossCompiling := true
  binaryDir := lit "/build"
  isDirectory _ := true
  isTarget t := t == lit "dep"

def sections : List Section :=
  [⟨lit "INPUT_FILES", [lit "src/code-defining-structs.cpp", lit "other.h"]⟩, ⟨lit "GENERATORS", [lit "json", lit "binary"]⟩,
    ⟨lit "OUTPUT_LISTS", [lit "LIST_OF_GENERATED_HEADERS"]⟩, ⟨lit "CLANG_OPTIONS_FROM_TARGETS", [lit "mytarget"]⟩, ⟨lit "ERROR_RESILIENT", []⟩,
    ⟨lit "CLANG_OPTIONS_FROM_DEPENDENCIES", [lit "dep", lit "nothing"]⟩, ⟨lit "JSON_VISIBILITY", [lit "EXPORT"]⟩]

def args : List Str := sections.flatMap fun s => s.keyword :: s.values

def props (t n : Str) : Str :=
  if t = lit "mytarget" then
    if n = lit "CXX_STANDARD" then lit "17"
    else if n = lit "COMPILE_DEFINITIONS" then lit "A=1;;B"
    else if n = lit "INCLUDE_DIRECTORIES" then lit "/a;/b"
    else []
  else if n = lit "INTERFACE_COMPILE_DEFINITIONS" then lit "NO"
  else if n = lit "INTERFACE_INCLUDE_DIRECTORIES" then lit "/c"
  else []

example := C77_arguments sections (by
  intro s hs
  have : ∀ s ∈ sections, s.keyword ∈ keywords ∧ ∀ v ∈ s.values, v ∉ keywords := by decide
  exact this s hs)

def options : List GenEx := (clangOptions settings (parse args)).getD []
def result : List Command × Vars := addCommands settings (parse args) options ((parse args).multi (lit "INPUT_FILES")) fun _ => []

theorem added : addInvocation settings args (fun _ => []) = some (result.1, result.2) := rfl

theorem outputs : result.1.map Command.output = [lit "/build/reflection/code-defining-structs.h", lit "/build/reflection/other.h"] := by decide
example := (C77_output_lists added (by decide) (lit "LIST_OF_GENERATED_HEADERS")).1 (by decide)

theorem noOptions : NoOptions settings (parse args) props where
  inputs := by decide
  generators := by decide
  classes := by decide
  options := by decide
  visibilities := by decide
  settings := by decide
  properties := by
    intro t n l hl x hx
    rw [← hl.eq] at hx
    have hv : props t n ∈ [lit "17", lit "A=1;;B", lit "/a;/b", lit "NO", lit "/c", []] := by
      unfold props
      repeat' split
      all_goals simp
    have : ∀ v ∈ [lit "17", lit "A=1;;B", lit "/a;/b", lit "NO", lit "/c", []], ∀ x ∈ elements v, x ∉ cliOptions := by decide
    exact this _ hv x hx

example (c : Command) (hc : c ∈ result.1) := C77_tool_arguments added noOptions c hc

/-- what Clang gets: the definition `NO` of the dependency is missing -/
example : result.1.map (fun c => Cli.makeClangArgs (toArgs settings.executable (c.arguments.map (GenEx.eval props)))) =
    [lit "src/code-defining-structs.cpp", lit "other.h"].map fun i =>
      [lit "/usr/bin/reflective_rapidjson_generator", lit "-x", lit "c++", lit "-Wno-pragma-once-outside-header", lit "-std=c++14", lit "-fsyntax-only",
        lit "-DREFLECTIVE_RAPIDJSON_GENERATOR", lit "-resource-dir", lit "/usr/lib/clang/18", lit "-target", lit "x86_64-w64-mingw32", lit "-Xclang",
        lit "-triple", lit "-Xclang", lit "x86_64-w64-mingw32", lit "-I", lit "/opt/include", lit "-nostdinc", lit "-std=c++17", lit "-DA=1", lit "-DB",
        lit "-I/a", lit "-I/b", lit "-I/c", i] := by decide +kernel

theorem items {v : Str} {l : List Str} (h : elements v = l) : Items v l := h ▸ items_elements v

theorem notOff {l : List Str} (hl : ∀ x ∈ l, Element x) (h : isOff (joinWith [semicolon] l) = false) : ¬ Off l := by
  intro h'
  rw [(isOff_joined hl).2 h'] at h
  cases h

theorem mytarget : TargetOptions props (lit "mytarget") [lit "-std=c++17", lit "-DA=1", lit "-DB", lit "-I/a", lit "-I/b"] := by
  refine ⟨[lit "-std=c++17"], [], [], [lit "A=1", lit "B"], [lit "/a", lit "/b"], [], [], [lit "-DA=1", lit "-DB"], [lit "-I/a", lit "-I/b"],
    .inr ⟨by decide, by decide⟩, ⟨items (by decide), .inl ⟨.empty, rfl⟩⟩, ⟨items (by decide), .inl ⟨.empty, rfl⟩⟩,
    ⟨items (by decide), .inr ⟨notOff ?_ (by decide), by decide⟩⟩, ⟨items (by decide), .inr ⟨notOff ?_ (by decide), by decide⟩⟩, by decide⟩
  · intro x hx
    have : ∀ x ∈ [lit "A=1", lit "B"], x ≠ [] ∧ semicolon ∉ x := by decide
    exact this x hx
  · intro x hx
    have : ∀ x ∈ [lit "/a", lit "/b"], x ≠ [] ∧ semicolon ∉ x := by decide
    exact this x hx

theorem dependency : DependencyOptions settings.isTarget props (lit "dep") [lit "-I/c"] := by
  refine .inr ⟨by decide, [], [lit "NO"], [lit "/c"], [], [], [lit "-I/c"], ⟨items (by decide), .inl ⟨.empty, rfl⟩⟩,
    ⟨items (by decide), .inl ⟨.one (.inl (by decide)), rfl⟩⟩, ⟨items (by decide), .inr ⟨notOff ?_ (by decide), by decide⟩⟩, by decide⟩
  intro x hx
  have : ∀ x ∈ [lit "/c"], x ≠ [] ∧ semicolon ∉ x := by decide
  exact this x hx

example (c : Command) (hc : c ∈ result.1) := C77_clang_arguments added noOptions (by unfold Element; decide) ⟨by decide, by decide⟩
  (.inr ⟨⟨by decide, by decide⟩, by unfold FalseConstant; decide⟩) (by unfold Element; decide)
  (fun _ => [lit "-std=c++17", lit "-DA=1", lit "-DB", lit "-I/a", lit "-I/b"]) (fun t => if t = lit "dep" then [lit "-I/c"] else [])
  (fun t ht => by
    have : t = lit "mytarget" := by simpa using (show t ∈ [lit "mytarget"] from ht)
    rw [this]
    exact mytarget)
  (fun t ht => by
    have ht : t ∈ [lit "dep", lit "nothing"] := ht
    simp only [List.mem_cons, List.not_mem_nil, or_false] at ht
    rcases ht with rfl | rfl
    · rw [if_pos rfl]
      exact dependency
    · rw [if_neg (by decide)]
      exact .inl ⟨by decide, rfl⟩) c hc

def clang : List Str → Cli.ClangResult := fun _ => .unit Gen.Demo.tu []

example := C77_output_files added noOptions (by rw [outputs]; decide) (by
    intro g hg
    have hg : g ∈ [lit "json", lit "binary"] := hg
    simpa [Cli.Known] using hg) clang ⟨fun _ => none, fun _ => true, []⟩ (fun _ _ => rfl) (fun _ => Gen.Demo.tu) (fun _ => []) (fun _ _ => rfl) result.1 (.refl _)

example : Stem (lit "src/code-defining-structs.cpp") (lit "code-defining-structs") :=
  ⟨lit "src/", lit ".cpp", by decide, .inr ⟨lit "src", by decide⟩, by decide, by decide, .inr ⟨lit "cpp", by decide⟩⟩
/-- two input files, one output file -/
example : Stem (lit "a/foo.h") (lit "foo") ∧ Stem (lit "b/foo.bar.cpp") (lit "foo") :=
  ⟨⟨lit "a/", lit ".h", by decide, .inr ⟨lit "a", by decide⟩, by decide, by decide, .inr ⟨lit "h", by decide⟩⟩,
    ⟨lit "b/", lit ".bar.cpp", by decide, .inr ⟨lit "b", by decide⟩, by decide, by decide, .inr ⟨lit "bar.cpp", by decide⟩⟩⟩
example := C77_limit_binary_visibility (lit "INPUT_FILES") (by decide) [lit "a.h"] (by decide) (lit "EXPORT") (by decide)
example := C77_limit_off (props := props) (pre := lit "-D") (t := lit "dep") (n := lit "INTERFACE_COMPILE_DEFINITIONS") (l := [lit "NO"])
  (items (by decide)) (.one (.inl (by decide)))

end Demo

end Verif.CMake
