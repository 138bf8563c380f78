import Verif.Algo.Plugins
import Verif.Sys.CmdLine
import Verif.Util.Tokenize
/-
  The program plugin_explorer (vital/tools/plugin_explorer.cxx); property C269.

  It is put together from the models of the command line parser (C151 - C153), the plugin manager (C131 - C137) and `tokenize` (C32).
  The configuration of an implementation is a parameter: for each object of the registrar the keys with their values and descriptions, in the
  order of `available_values` (every key has a value and a description: C01 - C12).  The names in the registrar of `algorithm` are those of the
  model of the plugin manager.  Text that the plugin manager or the plugins themselves print is left out.
-/
namespace Vital.Tools.Explorer
open Vital Vital.CmdLine

/-- The configuration an implementation reports. -/
abbrev Conf := Plugin.Obj → List (Str × Str × Str)

/-- How the program ends. -/
inductive End where
  | exit (code : Nat)
  /-- a null pointer or an element past the end of a vector is used -/
  | undefined
  deriving DecidableEq

structure Result where
  out : Str
  err : Str
  manager : Plugin.State
  fin : End

def nl : Str := ['\n']

-- models: vital/tools/plugin_explorer.cxx:52-68 (print_config)
def printConfig (c : List (Str × Str × Str)) : Str :=
  c!"    " ++ c!"Configuration block contents\n" ++
    (c.flatMap fun e => nl ++ c!"    " ++ c!"\"" ++ e.1 ++ c!"\" = \"" ++ e.2.1 ++ c!"\"\n" ++ c!"    " ++ c!"Description: " ++ e.2.2 ++ nl)

/-- The loop of detailed_algo: the text printed, and whether it got to the end. -/
-- models: vital/tools/plugin_explorer.cxx:77-99 (detailed_algo), vital/algo/algorithm.cxx (create: null when the name is not registered)
def detailed (conf : Conf) (reg : OMap Str Plugin.Obj) : List Str → Str × Bool
  | [] => ([], true)
  | name :: rest =>
    match Tokenize.tokenize name [] (c!":") false with
    | t :: i :: _ =>
      let head := c!"\n---------------------" ++ c!"\nDetailed info on type \"" ++ t ++ c!"\" implementation \"" ++ i ++ c!"\"" ++ nl
      match reg.find? (t ++ c!":" ++ i) with
      | none => (head, false)
      | some o => (head ++ printConfig (conf o) ++ (detailed conf reg rest).1, (detailed conf reg rest).2)
    | _ => ([], false)

-- models: vital/tools/plugin_explorer.cxx:104-120 (print_help)
def helpText : Str :=
  c!"This program loads Map-TK plugins and displays their data.\n" ++
  c!"Additional paths can be specified in \"KWIVER_PLUGIN_PATH\" environment variable\n" ++
  c!"\n" ++
  c!"Options are:\n" ++
  c!"  --help           displays usage information\n" ++
  c!"  --plugin-name    load only these plugins\n" ++
  c!"  --path name      also load plugins from this directory (can appear multiple times)\n" ++
  c!"  -Iname           also load plugins from this directory (can appear multiple times)\n" ++
  c!"  --detail  -d     generate detailed listing\n" ++
  c!"  --config         display plugin configuration\n"

/-- The variables before Parse. -/
-- models: vital/tools/plugin_explorer.cxx:44-47, 143 (addresses as in `CmdLine.explorer`)
def world0 : World := ⟨fun a => if a = 1 then [.string []] else [.bool false], []⟩

/-- The caller's view of the variables after Parse. -/
def isSet (w : World) (a : Nat) : Bool := w.vars a == [.bool true]

def pluginName (w : World) : Str := match w.vars 1 with | [.string s] => s | _ => []

-- models: vital/tools/plugin_explorer.cxx:125-134 (path_callback)
def pathsOf (w : World) : List Str := w.calls.filterMap fun c => match c with | .option _ _ (some v) => some v | _ => none

-- models: vital/tools/plugin_explorer.cxx:138-219 (main); `m0` is the manager as constructed, `fs` the file system
def main (key : Str → Nat) (fs : Plugin.FS) (conf : Conf) (m0 : Plugin.State) (argv0 : Str) (argv : List Str) : Result :=
  let r := parse agree (explorer.initialize argv0 argv) world0
  if ! r.2.2 then ⟨[], c!"Problem parsing arguments" ++ nl, m0, .exit 0⟩
  else if isSet r.2.1 0 then ⟨helpText, [], m0, .exit 0⟩
  else
    let m1 := (pathsOf r.2.1).foldl Plugin.addSearchPath m0
    let m2 := Plugin.registerPlugins key fs (pluginName r.2.1) m1
    let pathString := m2.searchPaths.foldl (fun s d => s ++ (d ++ c!":")) []
    let out1 := c!"---- Algorithm search path\n" ++ pathString ++ nl ++ nl
    let out2 := c!"---- Registered module names:\n" ++ (Plugin.registeredModuleNames m2).flatMap fun n => c!"   " ++ n ++ nl
    let out3 := c!"\n---- registered algorithms (type_name:impl_name)\n" ++ (OMap.keys m2.registry).flatMap fun n => c!"   " ++ n ++ nl
    if isSet r.2.1 2 then
      let d := detailed conf m2.registry (OMap.keys m2.registry)
      ⟨out1 ++ out2 ++ out3 ++ d.1, [], m2, if d.2 then .exit 0 else .undefined⟩
    else ⟨out1 ++ out2 ++ out3, [], m2, .exit 0⟩

/-! ### Specification -/

/-- One option as written on the command line. -/
inductive Opt1 where
  | help | detail | config
  | plugin (name : Str)
  | path (dir : Str)
  deriving DecidableEq

/-- The spellings of an option. -/
inductive Spells : Opt1 → List Str → Prop where
  | help : Spells .help [c!"--help"]
  | detail : Spells .detail [c!"--detail"]
  | d : Spells .detail [c!"-d"]
  | config : Spells .config [c!"--config"]
  | plugin (n : Str) : Spells (.plugin n) [c!"--plugin-name", n]
  | path (p : Str) : Spells (.path p) [c!"--path", p]
  | I (p : Str) : Spells (.path p) [c!"-I" ++ p]

/-- A command line written from options. -/
inductive Line : List Opt1 → List Str → Prop where
  | nil : Line [] []
  | cons {o os a args} : Spells o a → Line os args → Line (o :: os) (a ++ args)

def pathsAsked (os : List Opt1) : List Str := os.filterMap fun o => match o with | .path p => some p | _ => none

/-- The name asked for last, or none. -/
def nameAsked (os : List Opt1) : Str := ((os.filterMap fun o => match o with | .plugin n => some n | _ => none).getLast?).getD []

/-- The text for one implementation. -/
def entryText (t i : Str) (c : List (Str × Str × Str)) : Str :=
  c!"\n---------------------\nDetailed info on type \"" ++ t ++ c!"\" implementation \"" ++ i ++ c!"\"\n" ++ c!"    Configuration block contents\n" ++
    (c.map fun e => c!"\n    \"" ++ e.1 ++ c!"\" = \"" ++ e.2.1 ++ c!"\"\n    Description: " ++ e.2.2 ++ c!"\n").flatten

/-- The text of the three lists. -/
def listText (m : Plugin.State) : Str :=
  c!"---- Algorithm search path\n" ++ (m.searchPaths.map (· ++ c!":")).flatten ++ c!"\n\n" ++
  c!"---- Registered module names:\n" ++ ((Plugin.registeredModuleNames m).map fun n => c!"   " ++ n ++ c!"\n").flatten ++
  c!"\n---- registered algorithms (type_name:impl_name)\n" ++ ((OMap.keys m.registry).map fun n => c!"   " ++ n ++ c!"\n").flatten

/-- The details, one text for each registered implementation in order: its name is `t:i` and its configuration that of the object registered under it. -/
inductive Details (conf : Conf) (reg : OMap Str Plugin.Obj) : List Str → Str → Prop where
  | nil : Details conf reg [] []
  | cons {t i o rest text} : ':' ∉ t → reg.find? (t ++ c!":" ++ i) = some o → Details conf reg rest text →
      Details conf reg ((t ++ c!":" ++ i) :: rest) (entryText t i (conf o) ++ text)

/-- The manager after the calls the options ask for. -/
def managerAsked (key : Str → Nat) (fs : Plugin.FS) (m0 : Plugin.State) (os : List Opt1) : Plugin.State :=
  Plugin.run key m0 ((pathsAsked os).map Plugin.Op.addPath ++ [.register fs (nameAsked os)])

/-! ### The table of options -/

def table : OMap Str Opt := explorer.table

theorem table_sorted : table.Sorted := by unfold table explorer; repeat first | exact List.Pairwise.nil | apply add_sorted

/-- What the table says of each option. -/
theorem table_cases {n : Str} {o : Opt} (h : table.find? n = some o) :
    (n = c!"--help" ∧ o.kind = .flag ∧ o.act = .var 0 .bool false) ∨ (n = c!"--plugin-name" ∧ o.kind = .space ∧ o.act = .var 1 .string false) ∨
    (n = c!"--detail" ∧ o.kind = .flag ∧ o.act = .var 2 .bool false) ∨ (n = c!"-d" ∧ o.kind = .flag ∧ o.act = .var 2 .bool false) ∨
    (n = c!"--config" ∧ o.kind = .flag ∧ o.act = .var 3 .bool false) ∨ (n = c!"--path" ∧ o.kind = .space ∧ o.act = .call 0) ∨
    (n = c!"-I" ∧ o.kind = .concat ∧ o.act = .call 0) := by
  have hm := (find?_mem table_sorted).1 h
  have key : ∀ e ∈ table, (e.1 = c!"--help" ∧ e.2.kind = .flag ∧ e.2.act = .var 0 .bool false) ∨ (e.1 = c!"--plugin-name" ∧ e.2.kind = .space ∧ e.2.act = .var 1 .string false) ∨
    (e.1 = c!"--detail" ∧ e.2.kind = .flag ∧ e.2.act = .var 2 .bool false) ∨ (e.1 = c!"-d" ∧ e.2.kind = .flag ∧ e.2.act = .var 2 .bool false) ∨
    (e.1 = c!"--config" ∧ e.2.kind = .flag ∧ e.2.act = .var 3 .bool false) ∨ (e.1 = c!"--path" ∧ e.2.kind = .space ∧ e.2.act = .call 0) ∨
    (e.1 = c!"-I" ∧ e.2.kind = .concat ∧ e.2.act = .call 0) := by decide +kernel
  exact key (n, o) hm

theorem names_cases {arg n : Str} {o : Opt} (h : Names table arg n o) : (arg = n ∧ n ≠ c!"-I") ∨ (n = c!"-I" ∧ c!"-I" <+: arg) := by
  obtain ⟨h1, h2, h3⟩ := h
  rcases table_cases h1 with ⟨e, k, _⟩ | ⟨e, k, _⟩ | ⟨e, k, _⟩ | ⟨e, k, _⟩ | ⟨e, k, _⟩ | ⟨e, k, _⟩ | ⟨e, k, _⟩
  · left; exact ⟨h2 (.inl k), by rw [e]; decide⟩
  · left; exact ⟨h2 (.inr k), by rw [e]; decide⟩
  · left; exact ⟨h2 (.inl k), by rw [e]; decide⟩
  · left; exact ⟨h2 (.inl k), by rw [e]; decide⟩
  · left; exact ⟨h2 (.inl k), by rw [e]; decide⟩
  · left; exact ⟨h2 (.inr k), by rw [e]; decide⟩
  · right; exact ⟨e, by rw [← e]; exact h3⟩

/-- An option written in full is chosen. -/
theorem chosen_word {n : Str} {o : Opt} (h : table.find? n = some o) (hI : ¬ c!"-I" <+: n) : Chosen table n n o := by
  refine ⟨⟨h, fun _ => rfl, List.prefix_refl _⟩, ?_⟩
  intro n' o' h'
  rcases names_cases h' with ⟨e, _⟩ | ⟨_, e⟩
  · rw [e]
  · exact absurd e hI

theorem chosen_I {o : Opt} (h : table.find? (c!"-I") = some o) (hk : o.kind = .concat) (p : Str) : Chosen table (c!"-I" ++ p) (c!"-I") o := by
  refine ⟨⟨h, fun hh => ?_, List.prefix_append _ _⟩, ?_⟩
  · rw [hk] at hh; rcases hh with hh | hh <;> cases hh
  · intro n' o' h'
    rcases names_cases h' with ⟨e, hne⟩ | ⟨e, _⟩
    · exfalso
      obtain ⟨h1, -, -⟩ := h'
      rw [← e] at h1
      rcases table_cases h1 with ⟨e, _⟩ | ⟨e, _⟩ | ⟨e, _⟩ | ⟨e, _⟩ | ⟨e, _⟩ | ⟨e, _⟩ | ⟨e', _⟩
      all_goals first | (simp at e; done) | (rw [e] at e'; exact hne e')
    · rw [e]

/-- What the program reads from the variables. -/
structure View where
  help : Bool
  detail : Bool
  name : Str
  paths : List Str

def view (w : World) : View := ⟨isSet w 0, isSet w 2, pluginName w, pathsOf w⟩

/-- The effect of one option. -/
def eff (v : View) : Opt1 → View
  | .help => { v with help := true }
  | .detail => { v with detail := true }
  | .config => v
  | .plugin n => { v with name := n }
  | .path p => { v with paths := v.paths ++ [p] }

theorem find_some (n : Str) (h : (table.find? n).isSome = true) : ∃ o, table.find? n = some o := Option.isSome_iff_exists.1 h

theorem settle_flag {n : Str} {o : Opt} {a : Nat} (hact : o.act = .var a .bool false) (w : World) :
    settle agree [⟨n, o, none⟩] w = ({ w with vars := fun x => if x = a then [.bool true] else w.vars x }, true) := by
  have : convert .bool ((none : Option Str).getD (c!"1")) = .bool true := by decide +kernel
  simp only [settle, populate, hact, this, Bool.false_eq_true, if_false]

theorem settle_name {n v : Str} {o : Opt} (hact : o.act = .var 1 .string false) (w : World) :
    settle agree [⟨n, o, some v⟩] w = ({ w with vars := fun x => if x = 1 then [.string v] else w.vars x }, true) := by
  simp only [settle, populate, hact, Bool.false_eq_true, if_false, convert, Option.getD]

theorem settle_path {n v : Str} {o : Opt} (hact : o.act = .call 0) (w : World) :
    settle agree [⟨n, o, some v⟩] w = ({ w with calls := w.calls ++ [.option 0 n (some v)] }, true) := by
  simp only [settle, populate, hact, agree]

/-- An option as written is one group for the parser, with the right effect. -/
theorem spells_group {o : Opt1} {a : List Str} (h : Spells o a) : ∃ es, Group table false a es [] ∧ ¬ IsMulti table a ∧
    ∀ w, ∃ w', settle agree es w = (w', true) ∧ view w' = eff (view w) o := by
  have hmulti : ∀ a : List Str, ¬ IsMulti table a := by
    rintro a ⟨arg, n, o, -, hc, hk⟩
    rcases table_cases hc.1.1 with ⟨_, k, _⟩ | ⟨_, k, _⟩ | ⟨_, k, _⟩ | ⟨_, k, _⟩ | ⟨_, k, _⟩ | ⟨_, k, _⟩ | ⟨_, k, _⟩ <;> rw [hk] at k <;> cases k
  have flag : ∀ (n : Str) (i : Nat), (∃ o, table.find? n = some o ∧ o.kind = .flag ∧ o.act = .var i .bool false) → (¬ c!"-I" <+: n) →
      ∃ es, Group table false [n] es [] ∧ ∀ w, settle agree es w = ({ w with vars := fun x => if x = i then [.bool true] else w.vars x }, true) := by
    rintro n i ⟨o, h1, h2, h3⟩ hI
    exact ⟨_, .flag (chosen_word h1 hI) h2, fun w => settle_flag h3 w⟩
  cases h with
  | help =>
    obtain ⟨es, h1, h2⟩ := flag (c!"--help") 0 ⟨_, rfl, rfl, rfl⟩ (by decide)
    exact ⟨es, h1, hmulti _, fun w => ⟨_, h2 w, rfl⟩⟩
  | detail =>
    obtain ⟨es, h1, h2⟩ := flag (c!"--detail") 2 ⟨_, rfl, rfl, rfl⟩ (by decide)
    exact ⟨es, h1, hmulti _, fun w => ⟨_, h2 w, rfl⟩⟩
  | d =>
    obtain ⟨es, h1, h2⟩ := flag (c!"-d") 2 ⟨_, rfl, rfl, rfl⟩ (by decide)
    exact ⟨es, h1, hmulti _, fun w => ⟨_, h2 w, rfl⟩⟩
  | config =>
    obtain ⟨es, h1, h2⟩ := flag (c!"--config") 3 ⟨_, rfl, rfl, rfl⟩ (by decide)
    exact ⟨es, h1, hmulti _, fun w => ⟨_, h2 w, rfl⟩⟩
  | plugin n =>
    exact ⟨_, .space (v := n) (chosen_word (n := c!"--plugin-name") (o := ⟨.space, .var 1 .string false, c!"Display usage information"⟩) rfl (by decide)) rfl, hmulti _,
      fun w => ⟨_, settle_name rfl w, rfl⟩⟩
  | path p =>
    exact ⟨_, .space (v := p) (chosen_word (n := c!"--path") (o := ⟨.space, .call 0, c!"Add directory to plugin search path"⟩) rfl (by decide)) rfl, hmulti _,
      fun w => ⟨_, settle_path rfl w, by simp [view, eff, isSet, pluginName, pathsOf]⟩⟩
  | I p =>
    exact ⟨_, .concat (v := p) (chosen_I (o := ⟨.concat, .call 0, c!"Add directory to plugin search path"⟩) rfl rfl p) rfl rfl, hmulti _,
      fun w => ⟨_, settle_path rfl w, by simp [view, eff, isSet, pluginName, pathsOf]⟩⟩

theorem line_reads {os : List Opt1} {argv : List Str} (h : Line os argv) : ∃ es, Reads table false argv es [] ∧
    ∀ w, ∃ w', settle agree es w = (w', true) ∧ view w' = os.foldl eff (view w) := by
  induction h with
  | nil => exact ⟨[], .nil, fun w => ⟨w, rfl, rfl⟩⟩
  | cons hs _ ih =>
    obtain ⟨es1, g1, g2, g3⟩ := spells_group hs
    obtain ⟨es2, r1, r2⟩ := ih
    refine ⟨es1 ++ es2, .cons (us := []) (us' := []) g1 (fun hm => absurd hm g2) r1, fun w => ?_⟩
    obtain ⟨w1, s1, v1⟩ := g3 w
    obtain ⟨w2, s2, v2⟩ := r2 w1
    refine ⟨w2, ?_, by rw [v2, v1]; rfl⟩
    rw [settle_append, s1]
    exact s2

theorem group_spells {a : List Str} {es : List Setting} {us : List Str} (h : Group table false a es us) : ∃ o, Spells o a := by
  cases h with
  | flag hc hk =>
    have e := hc.1.2.1 (.inl hk)
    subst e
    rcases table_cases hc.1.1 with ⟨e, k, _⟩ | ⟨e, k, _⟩ | ⟨e, k, _⟩ | ⟨e, k, _⟩ | ⟨e, k, _⟩ | ⟨e, k, _⟩ | ⟨e, k, _⟩
    · rw [e]; exact ⟨_, .help⟩
    · rw [hk] at k; cases k
    · rw [e]; exact ⟨_, .detail⟩
    · rw [e]; exact ⟨_, .d⟩
    · rw [e]; exact ⟨_, .config⟩
    · rw [hk] at k; cases k
    · rw [hk] at k; cases k
  | space hc hk =>
    have e := hc.1.2.1 (.inr hk)
    subst e
    rcases table_cases hc.1.1 with ⟨e, k, _⟩ | ⟨e, k, _⟩ | ⟨e, k, _⟩ | ⟨e, k, _⟩ | ⟨e, k, _⟩ | ⟨e, k, _⟩ | ⟨e, k, _⟩
    · rw [hk] at k; cases k
    · rw [e]; exact ⟨_, .plugin _⟩
    · rw [hk] at k; cases k
    · rw [hk] at k; cases k
    · rw [hk] at k; cases k
    · rw [e]; exact ⟨_, .path _⟩
    · rw [hk] at k; cases k
  | equal hc hk _ =>
    rcases table_cases hc.1.1 with ⟨_, k, _⟩ | ⟨_, k, _⟩ | ⟨_, k, _⟩ | ⟨_, k, _⟩ | ⟨_, k, _⟩ | ⟨_, k, _⟩ | ⟨_, k, _⟩ <;> rw [hk] at k <;> cases k
  | multi hc hk _ =>
    rcases table_cases hc.1.1 with ⟨_, k, _⟩ | ⟨_, k, _⟩ | ⟨_, k, _⟩ | ⟨_, k, _⟩ | ⟨_, k, _⟩ | ⟨_, k, _⟩ | ⟨_, k, _⟩ <;> rw [hk] at k <;> cases k
  | concat hc hk he =>
    rcases table_cases hc.1.1 with ⟨e, k, _⟩ | ⟨e, k, _⟩ | ⟨e, k, _⟩ | ⟨e, k, _⟩ | ⟨e, k, _⟩ | ⟨e, k, _⟩ | ⟨e, k, _⟩
    all_goals first | (rw [hk] at k; cases k; done) | skip
    rw [he, e]; exact ⟨_, .I _⟩
  | unknown _ h => cases h

theorem reads_line {argv : List Str} {es : List Setting} {us : List Str} (h : Reads table false argv es us) : ∃ os, Line os argv := by
  generalize hb : false = store at h
  induction h with
  | nil => exact ⟨[], .nil⟩
  | cons hg _ _ ih =>
    subst hb
    obtain ⟨o, ho⟩ := group_spells hg
    obtain ⟨os, h⟩ := ih
    exact ⟨o :: os, .cons ho h⟩

theorem parse_line (argv0 : Str) {os : List Opt1} {argv : List Str} (h : Line os argv) :
    (parse agree (explorer.initialize argv0 argv) world0).2.2 = true ∧
    view (parse agree (explorer.initialize argv0 argv) world0).2.1 = os.foldl eff (view world0) := by
  obtain ⟨es, h1, h2⟩ := line_reads h
  obtain ⟨w', h3, h4⟩ := h2 world0
  have := ((C151_parse agree (explorer.initialize argv0 argv) table_sorted rfl world0).1 es [] h1).1
  rw [h3] at this
  rw [this]
  exact ⟨rfl, h4⟩

theorem parse_bad (argv0 : Str) {argv : List Str} (h : ¬ ∃ os, Line os argv) :
    (parse agree (explorer.initialize argv0 argv) world0).2.2 = false :=
  (C151_parse agree (explorer.initialize argv0 argv) table_sorted rfl world0).2 (fun ⟨_, _, hr⟩ => h (reads_line hr))

theorem fold_eff : ∀ (os : List Opt1) (v : View), (os.foldl eff v).help = (v.help || os.contains .help) ∧ (os.foldl eff v).detail = (v.detail || os.contains .detail) ∧
    (os.foldl eff v).name = ((os.filterMap fun o => match o with | .plugin n => some n | _ => none).getLast?).getD v.name ∧
    (os.foldl eff v).paths = v.paths ++ pathsAsked os := by
  intro os
  induction os with
  | nil => intro v; simp [pathsAsked]
  | cons o os ih =>
    intro v
    obtain ⟨h1, h2, h3, h4⟩ := ih (eff v o)
    rw [List.foldl_cons]
    refine ⟨?_, ?_, ?_, ?_⟩
    · rw [h1]; cases o <;> simp [eff]
    · rw [h2]; cases o <;> simp [eff]
    · rw [h3]
      cases o <;> simp only [eff, List.filterMap_cons]
      rename_i n
      cases hl : os.filterMap (fun o => match o with | .plugin n => some n | _ => none) with
      | nil => simp
      | cons a l => simp [List.getLast?_cons]
    · rw [h4]; cases o <;> simp [eff, pathsAsked]

theorem view_asked (argv0 : Str) {os : List Opt1} {argv : List Str} (h : Line os argv) :
    let w := (parse agree (explorer.initialize argv0 argv) world0).2.1
    isSet w 0 = os.contains .help ∧ isSet w 2 = os.contains .detail ∧ pluginName w = nameAsked os ∧ pathsOf w = pathsAsked os := by
  intro w
  have hv := (parse_line argv0 h).2
  obtain ⟨h1, h2, h3, h4⟩ := fold_eff os (view world0)
  rw [← hv] at h1 h2 h3 h4
  have e : view world0 = ⟨false, false, [], []⟩ := rfl
  rw [e] at h1 h2 h3 h4
  refine ⟨?_, ?_, h3, ?_⟩
  · show (view _).help = _; rw [h1]; simp
  · show (view _).detail = _; rw [h2]; simp
  · show (view _).paths = _; rw [h4]; simp

theorem manager_eq (key : Str → Nat) (fs : Plugin.FS) (m0 : Plugin.State) (ps : List Str) (n : Str) :
    Plugin.registerPlugins key fs n (ps.foldl Plugin.addSearchPath m0) = Plugin.run key m0 (ps.map Plugin.Op.addPath ++ [.register fs n]) := by
  unfold Plugin.run
  rw [List.foldl_append, List.foldl_map]
  rfl

theorem lists_eq (m : Plugin.State) :
    (c!"---- Algorithm search path\n" ++ m.searchPaths.foldl (fun s d => s ++ (d ++ c!":")) [] ++ nl ++ nl) ++
    (c!"---- Registered module names:\n" ++ (Plugin.registeredModuleNames m).flatMap fun n => c!"   " ++ n ++ nl) ++
    (c!"\n---- registered algorithms (type_name:impl_name)\n" ++ (OMap.keys m.registry).flatMap fun n => c!"   " ++ n ++ nl) = listText m := by
  have hf : ∀ (ds : List Str) (s : Str), ds.foldl (fun s d => s ++ (d ++ c!":")) s = s ++ (ds.map (· ++ c!":")).flatten := by
    intro ds
    induction ds with
    | nil => intro s; simp
    | cons d ds ih => intro s; rw [List.foldl_cons, ih]; simp
  rw [hf]
  unfold listText nl
  simp only [List.flatMap_def, List.append_assoc, List.nil_append, List.cons_append]

/-! ### The details -/

/-- Exactly one colon in the name of an implementation. -/
def OneColon (n : Str) : Prop := ∃ t i, n = t ++ c!":" ++ i ∧ ':' ∉ t ∧ ':' ∉ i

theorem pieces_clean (s : Str) (h : ':' ∉ s) : Tokenize.pieces (c!":") s = [s] := by
  induction s with
  | nil => rfl
  | cons a s ih =>
    have ha : a ≠ ':' := fun e => h (by simp [e])
    have hs := ih (fun hm => h (by simp [hm]))
    simp [Tokenize.pieces, hs, ha]

theorem pieces_colon (t r : Str) (h : ':' ∉ t) : Tokenize.pieces (c!":") (t ++ c!":" ++ r) = t :: Tokenize.pieces (c!":") r := by
  induction t with
  | nil => simp [Tokenize.pieces]
  | cons a t ih =>
    have ha : a ≠ ':' := fun e => h (by simp [e])
    have hs := ih (fun hm => h (by simp [hm]))
    rw [List.append_assoc] at hs
    simp only [List.cons_append, List.nil_append] at hs
    simp [Tokenize.pieces, hs, ha]

theorem tokens_eq (n : Str) : Tokenize.tokenize n [] (c!":") false = Tokenize.pieces (c!":") n := by
  rw [Tokenize.tokenize_eq]; simp [Tokenize.keep]

theorem printConfig_eq (c : List (Str × Str × Str)) : printConfig c = c!"    Configuration block contents\n" ++
    (c.map fun e => c!"\n    \"" ++ e.1 ++ c!"\" = \"" ++ e.2.1 ++ c!"\"\n    Description: " ++ e.2.2 ++ c!"\n").flatten := by
  unfold printConfig nl
  simp only [List.flatMap_def, List.append_assoc, List.nil_append, List.cons_append]

theorem detailed_ok (conf : Conf) (reg : OMap Str Plugin.Obj) : ∀ names : List Str, (∀ n ∈ names, OneColon n ∧ (reg.find? n).isSome = true) →
    ∃ text, Details conf reg names text ∧ detailed conf reg names = (text, true) := by
  intro names
  induction names with
  | nil => intro _; exact ⟨[], .nil, rfl⟩
  | cons n rest ih =>
    intro h
    obtain ⟨⟨t, i, hn, ht, hi⟩, hs⟩ := h n (by simp)
    obtain ⟨text, h1, h2⟩ := ih (fun x hx => h x (by simp [hx]))
    obtain ⟨o, ho⟩ := Option.isSome_iff_exists.1 hs
    subst hn
    refine ⟨entryText t i (conf o) ++ text, .cons ht ho h1, ?_⟩
    rw [detailed, tokens_eq, pieces_colon t i ht, pieces_clean i hi]
    simp only [ho, h2, Prod.mk.injEq, and_true]
    unfold entryText
    rw [printConfig_eq]
    simp only [nl, List.append_assoc, List.nil_append, List.cons_append]

/-! ### C269 -/

/-- Full property C269. -/
def C269_statement : Prop := ∀ (key : Str → Nat) (fs : Plugin.FS) (conf : Conf) (m0 : Plugin.State) (argv0 : Str) (os : List Opt1) (argv : List Str),
  OMap.Sorted m0.registry → Line os argv → .help ∉ os →
    ∃ text, (if .detail ∈ os then Details conf (managerAsked key fs m0 os).registry (OMap.keys (managerAsked key fs m0 os).registry) text else text = []) ∧
      main key fs conf m0 argv0 argv = ⟨listText (managerAsked key fs m0 os) ++ text, [], managerAsked key fs m0 os, .exit 0⟩

/-- A command line is one of options or it is refused: a message, nothing loaded, and the exit code of success. -/
theorem C269_refused (key : Str → Nat) (fs : Plugin.FS) (conf : Conf) (m0 : Plugin.State) (argv0 : Str) (argv : List Str) (h : ¬ ∃ os, Line os argv) :
    main key fs conf m0 argv0 argv = ⟨[], c!"Problem parsing arguments\n", m0, .exit 0⟩ := by
  unfold main
  simp only [parse_bad argv0 h, Bool.not_false, if_true]
  rfl

/-- With `--help` anywhere the help text is printed and nothing is loaded. -/
theorem C269_help (key : Str → Nat) (fs : Plugin.FS) (conf : Conf) (m0 : Plugin.State) (argv0 : Str) {os : List Opt1} {argv : List Str} (h : Line os argv) (hh : .help ∈ os) :
    main key fs conf m0 argv0 argv = ⟨helpText, [], m0, .exit 0⟩ := by
  have h1 := (parse_line argv0 h).1
  obtain ⟨h2, -⟩ := view_asked argv0 h
  unfold main
  simp only [h1, Bool.not_true, Bool.false_eq_true, if_false, h2, List.contains_iff_mem.2 hh, if_true]

theorem main_eq (key : Str → Nat) (fs : Plugin.FS) (conf : Conf) (m0 : Plugin.State) (argv0 : Str) {os : List Opt1} {argv : List Str} (h : Line os argv) (hh : .help ∉ os) :
    main key fs conf m0 argv0 argv =
      if .detail ∈ os then
        ⟨listText (managerAsked key fs m0 os) ++ (detailed conf (managerAsked key fs m0 os).registry (OMap.keys (managerAsked key fs m0 os).registry)).1, [], managerAsked key fs m0 os,
          if (detailed conf (managerAsked key fs m0 os).registry (OMap.keys (managerAsked key fs m0 os).registry)).2 then .exit 0 else .undefined⟩
      else ⟨listText (managerAsked key fs m0 os), [], managerAsked key fs m0 os, .exit 0⟩ := by
  have h1 := (parse_line argv0 h).1
  obtain ⟨h2, h3, h4, h5⟩ := view_asked argv0 h
  have hc : os.contains .help = false := by
    cases hb : os.contains .help with
    | false => rfl
    | true => exact absurd (List.contains_iff_mem.1 hb) hh
  unfold main
  simp only [h1, Bool.not_true, Bool.false_eq_true, if_false, h2, hc, h3, h4, h5, manager_eq, lists_eq]
  by_cases hd : Opt1.detail ∈ os
  · rw [if_pos hd, if_pos (List.contains_iff_mem.2 hd)]; rfl
  · rw [if_neg hd, if_neg (fun hb => hd (List.contains_iff_mem.1 hb))]; rfl

/-- What holds: the program loads the plugins of the name asked for last (all when none) with the directories asked for added to the search path in
    order, and prints exactly the search path, the modules and the implementations; with `--detail` also the configuration of each
    implementation, provided that every registered name has exactly one colon.
    Missing: the details when some registered name has no colon or more than one. -/
theorem C269_explorer_partial (key : Str → Nat) (fs : Plugin.FS) (conf : Conf) (m0 : Plugin.State) (argv0 : Str) (os : List Opt1) (argv : List Str)
    (h : Line os argv) (hh : .help ∉ os) (hn : .detail ∈ os → ∀ n ∈ OMap.keys (managerAsked key fs m0 os).registry, OneColon n) :
    ∃ text, (if .detail ∈ os then Details conf (managerAsked key fs m0 os).registry (OMap.keys (managerAsked key fs m0 os).registry) text else text = []) ∧
      main key fs conf m0 argv0 argv = ⟨listText (managerAsked key fs m0 os) ++ text, [], managerAsked key fs m0 os, .exit 0⟩ := by
  rw [main_eq key fs conf m0 argv0 h hh]
  by_cases hd : Opt1.detail ∈ os
  · obtain ⟨text, h1, h2⟩ := detailed_ok conf (managerAsked key fs m0 os).registry _ (fun n hm => ⟨hn hd n hm, (OMap.mem_keys_iff _ _).1 hm⟩)
    refine ⟨text, by rw [if_pos hd]; exact h1, ?_⟩
    rw [if_pos hd, h2]
    rfl
  · refine ⟨[], by rw [if_neg hd], ?_⟩
    rw [if_neg hd, List.append_nil]

/-- The option `--config` changes nothing. -/
theorem C269_config (key : Str → Nat) (fs : Plugin.FS) (conf : Conf) (m0 : Plugin.State) (argv0 : Str) {os : List Opt1} {argv : List Str} (h : Line os argv) :
    main key fs conf m0 argv0 (c!"--config" :: argv) = main key fs conf m0 argv0 argv := by
  have h' : Line (.config :: os) ([c!"--config"] ++ argv) := .cons .config h
  have e : [c!"--config"] ++ argv = c!"--config" :: argv := rfl
  rw [e] at h'
  by_cases hh : Opt1.help ∈ os
  · rw [C269_help key fs conf m0 argv0 h hh, C269_help key fs conf m0 argv0 h' (by simp [hh])]
  · have em : managerAsked key fs m0 (.config :: os) = managerAsked key fs m0 os := rfl
    rw [main_eq key fs conf m0 argv0 h hh, main_eq key fs conf m0 argv0 h' (by simpa using hh), em]
    by_cases hd : Opt1.detail ∈ os
    · rw [if_pos hd, if_pos (by simp [hd])]
    · rw [if_neg hd, if_neg (by simpa using hd)]

/-- The details stop in undefined behaviour at a first name without a colon, and at a first name `t:i:r` when nothing is registered as `t:i`. -/
theorem C269_bad_names (conf : Conf) (reg : OMap Str Plugin.Obj) (n : Str) (rest : List Str) :
    (':' ∉ n → (detailed conf reg (n :: rest)).2 = false) ∧
    (∀ t i r, n = t ++ c!":" ++ i ++ c!":" ++ r → ':' ∉ t → ':' ∉ i → reg.find? (t ++ c!":" ++ i) = none → (detailed conf reg (n :: rest)).2 = false) := by
  constructor
  · intro h
    rw [detailed, tokens_eq, pieces_clean n h]
  · rintro t i r rfl ht hi hf
    have e : t ++ c!":" ++ i ++ c!":" ++ r = t ++ c!":" ++ (i ++ c!":" ++ r) := by simp
    rw [detailed, tokens_eq, e, pieces_colon t _ ht, pieces_colon i r hi]
    simp only [hf]

/-- A directory with a plugin that registers an implementation whose name has a colon. -/
def exFs (name : Str) : Plugin.FS where
  w := { readable := fun p => p = c!"/p", isDir := fun p => p = c!"/p" }
  entries := fun d => if d = c!"/p" then some [c!"a.so"] else none
  lib := fun p => if p = c!"/p/a.so" then some ⟨some (fun _ => ([⟨name, 7⟩], 0))⟩ else none

/-- C269 is false of the code: with a plugin that registers `image_io:a:b`, `--detail` uses a null pointer. -/
theorem C269_refuted : ¬ C269_statement := by
  intro h
  obtain ⟨text, -, h2⟩ := h (fun _ => 0) (exFs (c!"image_io:a:b")) (fun _ => []) (Plugin.construct (c!"/p") none) [] [.detail] [c!"-d"] List.Pairwise.nil (.cons .d .nil) (by simp)
  have h3 := congrArg Result.fin h2
  have : (main (fun _ => 0) (exFs (c!"image_io:a:b")) (fun _ => []) (Plugin.construct (c!"/p") none) [] [c!"-d"]).fin = .undefined := by decide +kernel
  rw [this] at h3
  cases h3

example : let r := main (fun _ => 0) (exFs (c!"image_io:a")) (fun _ => [(c!"k", c!"v", c!"d")]) (Plugin.construct [] none) [] [c!"-I/p", c!"--config", c!"--detail"]
    (r.out, r.err, r.fin) = (c!"---- Algorithm search path\n/p:\n\n---- Registered module names:\n   a\n\n---- registered algorithms (type_name:impl_name)\n   image_io:a\n" ++
      c!"\n---------------------\nDetailed info on type \"image_io\" implementation \"a\"\n    Configuration block contents\n\n    \"k\" = \"v\"\n    Description: d\n", [], .exit 0) := by decide +kernel
example : Line [.path (c!"/p"), .config, .detail, .plugin (c!"a")] [c!"-I/p", c!"--config", c!"--detail", c!"--plugin-name", c!"a"] :=
  .cons (.I (c!"/p")) (.cons .config (.cons .detail (.cons (.plugin (c!"a")) .nil)))
example : (main (fun _ => 0) (exFs (c!"x:y")) (fun _ => []) (Plugin.construct [] none) [] [c!"--path"]).err = c!"Problem parsing arguments\n" := by decide +kernel

end Vital.Tools.Explorer
