import Verif.Model.Cli
import Verif.Props.Diagnostics
import Verif.Props.Generator
import Verif.DemoGen

/-!
# C51: the command line tool
-/

namespace Verif.Cli
open Verif.Gen

/-! ## Specification -/

/-- the byte `;` -/
def semicolon : UInt8 := 0x3b

/-- `ps` are the parts of `v` between semicolons: joined by semicolons they give `v`, and none contains one -/
def Parts (v : Str) (ps : List Str) : Prop :=
  ps ≠ [] ∧ List.intercalate [semicolon] ps = v ∧ ∀ p ∈ ps, semicolon ∉ p

/-- known generator names -/
def Known (name : Str) : Prop := name = lit "json" ∨ name = lit "binary"

/-- the names of the generators to run -/
def Args.names (a : Args) : List Str := a.generators.getD [lit "json"]

/-- the text generated for one name -/
def textFor (a : Args) (tu : TU) (name : Str) : Str :=
  if name = lit "binary" then renderAll (generateBinary a.binary tu) else renderAll (generateJson a.json tu)

/-! ## Splitting options -/

theorem intercalate_cons (sep p : Str) (ps : List Str) (h : ps ≠ []) :
    List.intercalate sep (p :: ps) = p ++ sep ++ List.intercalate sep ps := by
  cases ps with
  | nil => exact absurd rfl h
  | cons q qs => simp [List.intercalate, List.intersperse]

theorem splitLoop_parts (v : Str) : ∀ cur : Str, semicolon ∉ cur → Parts (cur.reverse ++ v) (splitLoop cur v) := by
  induction v with
  | nil => intro cur h; refine ⟨by simp [splitLoop], by simp [splitLoop, List.intercalate], ?_⟩; simpa [splitLoop] using h
  | cons c cs ih =>
    intro cur h
    rw [splitLoop]
    by_cases hc : c = 0x3b
    · subst hc
      obtain ⟨h1, h2, h3⟩ := ih [] (by simp)
      simp only [if_pos]
      refine ⟨by simp, ?_, ?_⟩
      · rw [intercalate_cons _ _ _ h1, h2]
        simp [semicolon]
      · intro p hp
        rcases List.mem_cons.1 hp with rfl | hp
        · simpa using h
        · exact h3 p hp
    · rw [if_neg hc]
      have := ih (c :: cur) (by
        intro hm
        rcases List.mem_cons.1 hm with h' | h'
        · exact hc h'.symm
        · exact h h')
      simpa using this

theorem parts_split (v : Str) : Parts v (split v) := splitLoop_parts v [] (by simp)

theorem append_sep_inj {a b x y : Str} (ha : semicolon ∉ a) (hb : semicolon ∉ b)
    (h : a ++ semicolon :: x = b ++ semicolon :: y) : a = b ∧ x = y := by
  induction a generalizing b with
  | nil =>
    cases b with
    | nil => simpa using h
    | cons c b => simp at h; exact absurd (h.1 ▸ List.mem_cons_self) hb
  | cons c a ih =>
    cases b with
    | nil => simp at h; exact absurd (h.1 ▸ List.mem_cons_self) ha
    | cons d b =>
      simp at h
      obtain ⟨h1, h2⟩ := ih (fun hm => ha (List.mem_cons_of_mem _ hm)) (fun hm => hb (List.mem_cons_of_mem _ hm)) h.2
      exact ⟨by rw [h.1, h1], h2⟩

/-- the parts of a value are unique -/
theorem Parts.unique {v : Str} {ps qs : List Str} (hp : Parts v ps) (hq : Parts v qs) : ps = qs := by
  induction ps generalizing v qs with
  | nil => exact absurd rfl hp.1
  | cons p ps ih =>
    obtain ⟨_, h2, h3⟩ := hp
    obtain ⟨g1, g2, g3⟩ := hq
    cases qs with
    | nil => exact absurd rfl g1
    | cons q qs =>
      have hpn := h3 p List.mem_cons_self
      have hqn := g3 q List.mem_cons_self
      cases ps with
      | nil =>
        cases qs with
        | nil => simp [List.intercalate] at h2 g2; rw [h2, g2]
        | cons r rs =>
          rw [intercalate_cons _ _ _ (by simp)] at g2
          simp [List.intercalate] at h2
          rw [h2, ← g2] at hpn
          simp at hpn
      | cons p' ps =>
        cases qs with
        | nil =>
          rw [intercalate_cons _ _ _ (by simp)] at h2
          simp [List.intercalate] at g2
          rw [g2, ← h2] at hqn
          simp at hqn
        | cons r rs =>
          rw [intercalate_cons _ _ _ (by simp)] at h2 g2
          have := append_sep_inj hpn hqn (x := List.intercalate [semicolon] (p' :: ps))
            (y := List.intercalate [semicolon] (r :: rs)) (by simpa using h2.trans g2.symm)
          rw [this.1, ih ⟨by simp, this.2, fun p hp => h3 p (List.mem_cons_of_mem _ hp)⟩
            ⟨by simp, rfl, fun p hp => g3 p (List.mem_cons_of_mem _ hp)⟩]

/-- C51: the options passed to clang are the non-empty parts between semicolons of all values given via `--clang-opt`, in
order -/
theorem C51_clang_options (a : Args) (values : List Str) (h : a.clangOpt = some values) (parts : Str → List Str)
    (hparts : ∀ v ∈ values, Parts v (parts v)) :
    clangOptions a = (values.flatMap parts).filter (fun p => p ≠ []) := by
  simp only [clangOptions, h]
  rw [List.filter_flatMap]
  rw [List.flatMap_def, List.flatMap_def]
  congr 1
  apply List.map_congr_left
  intro v hv
  rw [(parts_split v).unique (hparts v hv)]
  apply List.filter_congr
  intro p _
  cases p <;> simp

/-- C51: the command line passed to clang consists of the name of the executable, the tool's own flags, the options from
`--clang-opt` split at semicolons and the input files -/
theorem C51_clang_args (a : Args) (parts : Str → List Str) (hparts : ∀ v ∈ a.clangOpt.getD [], Parts v (parts v)) :
    makeClangArgs a = [a.executable, lit "-x", lit "c++", lit "-Wno-pragma-once-outside-header", lit "-std=c++14",
        lit "-fsyntax-only", lit "-DREFLECTIVE_RAPIDJSON_GENERATOR"]
      ++ ((a.clangOpt.getD []).flatMap parts).filter (fun p => p ≠ []) ++ a.inputFiles := by
  rw [makeClangArgs]
  cases h : a.clangOpt with
  | none => simp [clangOptions, h]
  | some values => rw [C51_clang_options a values h parts (by simpa [h] using hparts)]; rfl

/-- every value has parts -/
theorem C51_parts_exist (v : Str) : ∃ ps, Parts v ps := ⟨_, parts_split v⟩

/-- C51: without the argument no options are added -/
theorem C51_no_clang_options (a : Args) (h : a.clangOpt = none) : clangOptions a = [] := by simp [clangOptions, h]

/-! ## Generators -/

theorem lit_ne : (lit "json" : Str) ≠ lit "binary" := by decide

theorem generatorByName_known (a : Args) {n : Str} (h : Known n) :
    ∃ g, generatorByName a n = some g ∧ ∀ tu, g.text tu = textFor a tu n := by
  rcases h with rfl | rfl
  · exact ⟨.json a.json, by simp [generatorByName], fun tu => by simp [textFor, lit_ne, Generator.text]⟩
  · exact ⟨.binary a.binary, by simp [generatorByName, Ne.symm lit_ne], fun tu => by simp [textFor, Generator.text]⟩

theorem generatorByName_unknown (a : Args) {n : Str} (h : ¬Known n) : generatorByName a n = none := by
  simp only [Known, not_or] at h
  simp [generatorByName, h.1, h.2]

theorem loop_known (a : Args) (ns : List Str) : ∀ added, (∀ n ∈ ns, Known n) →
    ∃ gs, addGenerators.loop a added ns = some (added ++ gs) ∧ ∀ tu, gs.map (·.text tu) = ns.map (textFor a tu) := by
  induction ns with
  | nil => intro added _; exact ⟨[], by simp [addGenerators.loop], fun _ => rfl⟩
  | cons n ns ih =>
    intro added h
    obtain ⟨g, hg, ht⟩ := generatorByName_known a (h n List.mem_cons_self)
    obtain ⟨gs, hgs, hts⟩ := ih (added ++ [g]) (fun m hm => h m (List.mem_cons_of_mem _ hm))
    exact ⟨g :: gs, by simp [addGenerators.loop, hg, hgs], fun tu => by simp [ht, hts]⟩

theorem loop_unknown (a : Args) (ns : List Str) : ∀ added, (∃ n ∈ ns, ¬Known n) → addGenerators.loop a added ns = none := by
  induction ns with
  | nil => intro added ⟨_, h, _⟩; simp at h
  | cons n ns ih =>
    intro added ⟨m, hm, hu⟩
    rw [addGenerators.loop]
    cases hg : generatorByName a n with
    | none => rfl
    | some g =>
      apply ih
      rcases List.mem_cons.1 hm with rfl | hm
      · rw [generatorByName_unknown a hu] at hg; cases hg
      · exact ⟨m, hm, hu⟩

theorem addGenerators_known (a : Args) (h : ∀ n ∈ a.names, Known n) :
    ∃ gs, addGenerators a = some gs ∧ ∀ tu, gs.map (·.text tu) = a.names.map (textFor a tu) := by
  unfold addGenerators
  cases hg : a.generators with
  | none => exact ⟨_, rfl, fun tu => by simp [Args.names, hg, textFor, lit_ne, Generator.text]⟩
  | some ns =>
    have : a.names = ns := by simp [Args.names, hg]
    rw [this] at h ⊢
    obtain ⟨gs, h1, h2⟩ := loop_known a ns [] h
    exact ⟨gs, by simpa using h1, h2⟩

theorem addGenerators_unknown (a : Args) (h : ∃ n ∈ a.names, ¬Known n) : addGenerators a = none := by
  unfold addGenerators
  cases hg : a.generators with
  | none =>
    obtain ⟨n, hn, hu⟩ := h
    simp [Args.names, hg] at hn
    exact absurd (Or.inl hn) hu
  | some ns =>
    have : a.names = ns := by simp [Args.names, hg]
    rw [this] at h
    exact loop_unknown a ns [] h

theorem foldl_text (gs : List Generator) (tu : TU) : ∀ os : Str,
    gs.foldl (fun os g => os ++ g.text tu) os = os ++ (gs.map (·.text tu)).flatten := by
  induction gs with
  | nil => intro os; simp
  | cons g gs ih => intro os; simp [ih]

theorem generate_eq (gs : List Generator) (tu : TU) : generate gs tu = (gs.map (·.text tu)).flatten := by
  rw [generate, foldl_text, List.nil_append]

/-- whether the output can be written to -/
def Openable (a : Args) (w : World) : Prop := ∀ f, a.outputFile = some f → w.canOpen f = true

/-- contents of the output file, or what was printed -/
def output (a : Args) (w : World) : Str :=
  match a.outputFile with
  | none => w.stdout
  | some f => (w.files f).getD []

/-- what was there before generating code: stdout is appended to, a file is truncated -/
def outputBefore (a : Args) (w : World) : Str :=
  match a.outputFile with
  | none => w.stdout
  | some _ => []

/-- C51: unless the output cannot be opened or an unknown generator is requested, clang is invoked with the tool's own flags,
the options and the input files; the output consists of the code generated by the requested generators, each as often as it
was named, in that order; the status is 0 iff the diagnostics count as success, and -2 otherwise (the code is written
nevertheless). -/
theorem C51_run (clang : List Str → ClangResult) (a : Args) (w : World) (hopen : Openable a w)
    (hknown : ∀ n ∈ a.names, Known n) (tu : TU) (diags : List Diag.Diagnostic)
    (hclang : clang (makeClangArgs a) = .unit tu diags) :
    let r := main clang a w
    r.clangArgs = some (makeClangArgs a) ∧
    output a r.world = outputBefore a w ++ (a.names.map (textFor a tu)).flatten ∧
    r.status = (if Diag.succeeded a.errorResilient diags then 0 else -2) := by
  obtain ⟨gs, hgs, ht⟩ := addGenerators_known a hknown
  cases hf : a.outputFile with
  | none => simp [main, hf, hgs, hclang, output, outputBefore, World.write, generate_eq, ht]
  | some f =>
    have := hopen f hf
    simp [main, hf, hgs, hclang, output, outputBefore, World.write, generate_eq, ht, this]

/-- C51: an unknown generator name, wherever in the list, ends the process with -5; clang is not invoked, nothing is
generated - but a file to be written has been emptied already. -/
theorem C51_unknown_generator (clang : List Str → ClangResult) (a : Args) (w : World) (hopen : Openable a w)
    (hunknown : ∃ n ∈ a.names, ¬Known n) :
    let r := main clang a w
    r.status = -5 ∧ r.clangArgs = none ∧ output a r.world = outputBefore a w := by
  have hgs := addGenerators_unknown a hunknown
  cases hf : a.outputFile with
  | none => simp [main, hf, hgs, output, outputBefore]
  | some f => simp [main, hf, hgs, output, outputBefore, hopen f hf]

/-- C51: if the output file cannot be opened the process ends with -4 and nothing is changed -/
theorem C51_unopenable (clang : List Str → ClangResult) (a : Args) (w : World) (f : Str) (hf : a.outputFile = some f)
    (h : w.canOpen f = false) :
    let r := main clang a w
    r.status = -4 ∧ r.clangArgs = none ∧ r.world = w := by
  simp [main, hf, h]

/-- C51: if clang finds nothing to do the process ends with -2 and no code is written -/
theorem C51_no_job (clang : List Str → ClangResult) (a : Args) (w : World) (hopen : Openable a w)
    (hknown : ∀ n ∈ a.names, Known n) (hclang : clang (makeClangArgs a) = .noJob) :
    let r := main clang a w
    r.status = -2 ∧ output a r.world = outputBefore a w := by
  obtain ⟨gs, hgs, ht⟩ := addGenerators_known a hknown
  cases hf : a.outputFile with
  | none => simp [main, hf, hgs, hclang, output, outputBefore]
  | some f => simp [main, hf, hgs, hclang, output, outputBefore, hopen f hf]

/-- C51: no other file and, if writing to a file, not stdout is touched, whatever happens -/
theorem C51_only_output_changed (clang : List Str → ClangResult) (a : Args) (w : World) :
    let r := main clang a w
    (∀ g, a.outputFile ≠ some g → r.world.files g = w.files g) ∧ (a.outputFile ≠ none → r.world.stdout = w.stdout) := by
  cases hf : a.outputFile with
  | none =>
    simp only [main, hf]
    cases addGenerators a with
    | none => simp
    | some gs => cases clang (makeClangArgs a) <;> simp [World.write]
  | some f =>
    simp only [main, hf]
    cases w.canOpen f with
    | false => simp
    | true =>
      cases addGenerators a with
      | none => simp; intro g hg h; exact absurd h.symm hg
      | some gs =>
        cases clang (makeClangArgs a) with
        | noJob => simp; intro g hg h; exact absurd h.symm hg
        | unit tu ds =>
          simp [World.write]
          intro g hg
          have : g ≠ f := fun h => hg h.symm
          simp [this]

/-- C51: the status is 0 only if clang was invoked, all generators are known and there was no real error -/
theorem C51_status_zero (clang : List Str → ClangResult) (a : Args) (w : World) (h : (main clang a w).status = 0) :
    Openable a w ∧ (∀ n ∈ a.names, Known n) ∧
      ∃ tu diags, clang (makeClangArgs a) = .unit tu diags ∧ Diag.succeeded a.errorResilient diags = true := by
  have ho : Openable a w := by
    intro f hf
    cases hc : w.canOpen f with
    | true => rfl
    | false => rw [(C51_unopenable clang a w f hf hc).1] at h; cases h
  have hk : ∀ n ∈ a.names, Known n := by
    intro n hn
    apply Classical.byContradiction
    intro hu
    rw [(C51_unknown_generator clang a w ho ⟨n, hn, hu⟩).1] at h
    cases h
  refine ⟨ho, hk, ?_⟩
  cases hcl : clang (makeClangArgs a) with
  | noJob => rw [(C51_no_job clang a w ho hk hcl).1] at h; cases h
  | unit tu ds =>
    refine ⟨tu, ds, rfl, ?_⟩
    rw [(C51_run clang a w ho hk tu ds hcl).2.2] at h
    cases hs : Diag.succeeded a.errorResilient ds with
    | true => rfl
    | false => rw [hs] at h; cases h

/-- C51: by default only the JSON generator runs (the help text says all generators do) -/
theorem C51_default (a : Args) (h : a.generators = none) (tu : TU) :
    (a.names.map (textFor a tu)).flatten = renderAll (generateJson a.json tu) := by
  simp [Args.names, h, textFor, lit_ne]

/-! A case meeting the hypotheses -/

def demoArgs : Args where
  executable := lit "gen"
  inputFiles := [lit "a.h"]
  outputFile := some (lit "out.h")
  generators := some [lit "json", lit "binary"]
  clangOpt := some [lit "-I;;/usr", lit "-Dx"]
  errorResilient := true
  json := Gen.Demo.json
  binary := Gen.Demo.binary

def demoWorld : World := ⟨fun _ => none, fun _ => true, []⟩

example : clangOptions demoArgs = [lit "-I", lit "/usr", lit "-Dx"] := by decide
example : Parts (lit "-I;;/usr") [lit "-I", [], lit "/usr"] := by
  refine ⟨by decide, by decide, ?_⟩
  decide
example : Openable demoArgs demoWorld ∧ ∀ n ∈ demoArgs.names, Known n :=
  ⟨fun _ _ => rfl, fun n hn => by simpa [demoArgs, Args.names, Known] using hn⟩

end Verif.Cli
