import Mathlib.Logic.Function.Basic
import Mathlib.Data.Rat.Defs
import Mathlib.Data.List.Basic

/-!
# The commands `pf` and `opf` (main.py)

The command line is a list of words, a word a list of characters.  `optparse` of the standard library is modelled as far as these commands use it: long options with the value
in the same or the next word, unique abbreviations, short options alone, clustered or with the value attached, `--`, other arguments anywhere.  How `optparse` reads
numerals is a parameter.  Texts printed to the terminal are left out.
-/

namespace Verif.Cli

abbrev Str := List Char

/-- Values of options.  Infinities and NaN are left out. -/
inductive Val where
  | int (z : ℤ)
  | float (q : ℚ)
  | bool (b : Bool)
  | str (s : Str)

/-- How `optparse` reads integers and floats (`_parse_int`, `float`); `none` if it does not accept the word. -/
structure Conv where
  int : Str → Option ℤ
  float : Str → Option ℚ

/-- One entry of the tables of options: name and default (ppoption.py:8-176; the help texts are left out). -/
abbrev OptDef := Str × Val

/-- ppoption.py:8-33 -/
def PF_OPTIONS : List OptDef :=
  [("pf_alg".toList, .int 1), ("pf_tol".toList, .float (1 / 10 ^ 8)), ("pf_max_it".toList, .int 10), ("pf_max_it_fd".toList, .int 30), ("pf_max_it_gs".toList, .int 1000),
   ("enforce_q_lims".toList, .bool false), ("pf_dc".toList, .bool false), ("pf_lin_solver_nr".toList, .str [])]

/-- ppoption.py:35-70 -/
def CPF_OPTIONS : List OptDef :=
  [("cpf_parameterization".toList, .int 3), ("cpf_stop_at".toList, .str "NOSE".toList), ("cpf_step".toList, .float (5 / 100)), ("cpf_adapt_step".toList, .bool false),
   ("cpf_error_tol".toList, .float (1 / 10 ^ 3)), ("cpf_step_min".toList, .float (1 / 10 ^ 4)), ("cpf_step_max".toList, .float (2 / 10)), ("cpf_plot_level".toList, .int 0),
   ("cpf_plot_bus".toList, .str []), ("cpf_user_callback".toList, .str []), ("cpf_user_callback_args".toList, .str [])]

/-- ppoption.py:72-111 -/
def OPF_OPTIONS : List OptDef :=
  [("opf_alg".toList, .int 0), ("opf_violation".toList, .float (5 / 10 ^ 6)), ("opf_flow_lim".toList, .int 0), ("opf_ignore_ang_lim".toList, .bool false),
   ("opf_alg_dc".toList, .int 0)]

/-- ppoption.py:113-160 -/
def OUTPUT_OPTIONS : List OptDef :=
  [("verbose".toList, .int 1), ("out_all".toList, .int (-1)), ("out_sys_sum".toList, .bool true), ("out_area_sum".toList, .bool false), ("out_bus".toList, .bool true),
   ("out_branch".toList, .bool true), ("out_gen".toList, .bool false), ("out_all_lim".toList, .int (-1)), ("out_v_lim".toList, .int 1), ("out_line_lim".toList, .int 1),
   ("out_pg_lim".toList, .int 1), ("out_qg_lim".toList, .int 1), ("return_raw_der".toList, .int 0)]

/-- ppoption.py:162-176 -/
def PDIPM_OPTIONS : List OptDef :=
  [("pdipm_feastol".toList, .int 0), ("pdipm_gradtol".toList, .float (1 / 10 ^ 6)), ("pdipm_comptol".toList, .float (1 / 10 ^ 6)), ("pdipm_costtol".toList, .float (1 / 10 ^ 6)),
   ("pdipm_max_it".toList, .int 150), ("scpdipm_red_it".toList, .int 20)]

/-- The order in which `ppoption` collects the tables (ppoption.py:214). -/
def allOptions : List OptDef := PF_OPTIONS ++ CPF_OPTIONS ++ OPF_OPTIONS ++ OUTPUT_OPTIONS ++ PDIPM_OPTIONS

/-- `str.upper` on the names of options. -/
def upper (s : Str) : Str := s.map Char.toUpper

/-- A dictionary of options. -/
abbrev Opts := Str → Option Val

/-- `default_ppopt[name.upper()] = default` for each entry (ppoption.py:216-217). -/
def defaults : Opts := allOptions.foldl (fun o e => Function.update o (upper e.1) (some e.2)) fun _ => none

/-- main.py:28-29 -/
def AFFIRMATIVE : List Str := ["True", "Yes", "true", "yes", "1", "Y", "y"].map String.toList
def NEGATIVE : List Str := ["False", "No", "false", "no", "0", "N", "n"].map String.toList

/-- The names of the built-in cases (main.py:31-35). -/
def CASES : List Str :=
  ["case4gs", "case6ww", "case9", "case9Q", "case14", "case24_ieee_rts", "case30", "case30Q", "case30pwl", "case39", "case57", "case118", "case300", "case30_userfcns"].map
    String.toList

/-- The types of `optparse` (main.py:26). -/
inductive Ty where
  | choice
  | float
  | int
  | string
  deriving DecidableEq

/-- `TYPE_MAP.get(type(default_val), 'string')` (main.py:26, 63). -/
def tyOf : Val → Ty
  | .bool _ => .choice
  | .float _ => .float
  | .int _ => .int
  | .str _ => .string

inductive Flag where
  | test
  | uopf
  | wres
  deriving DecidableEq

inductive Store where
  | testcase
  | fname
  | solvedcase
  deriving DecidableEq

/-- What an option does: print a text and exit, set a flag, store a word, call `option_callback` with the converted value. -/
inductive Act where
  | info
  | flag (k : Flag)
  | store (k : Store)
  | callback (ty : Ty)
  deriving DecidableEq

structure Entry where
  short : Option Char
  long : Str
  act : Act
  deriving DecidableEq

/-- `add_options` (main.py:56-73). -/
def addOptions (l : List OptDef) : List Entry := l.map fun e => ⟨none, e.1, .callback (tyOf e.2)⟩

/-- The options of both commands: those `OptionParser` adds for help and version, and main.py:91-108. -/
def common : List Entry :=
  [⟨some 'h', "help".toList, .info⟩, ⟨none, "version".toList, .info⟩, ⟨some 't', "test".toList, .flag .test⟩, ⟨some 'c', "testcase".toList, .store .testcase⟩,
   ⟨some 'o', "outfile".toList, .store .fname⟩, ⟨some 's', "solvedcase".toList, .store .solvedcase⟩]

/-- The tables of options a command offers (main.py:112-137). -/
def optionsOf (opf : Bool) : List OptDef := if opf then OPF_OPTIONS ++ PDIPM_OPTIONS ++ OUTPUT_OPTIONS else PF_OPTIONS ++ OUTPUT_OPTIONS

/-- All options of a command (main.py:91-137). -/
def entries (opf : Bool) : List Entry :=
  common ++ (if opf then [⟨some 'u', "uopf".toList, .flag .uopf⟩, ⟨some 'r', "w_res".toList, .flag .wres⟩] else []) ++ addOptions (optionsOf opf)

/-- What parsing has collected so far. -/
structure St where
  opts : Opts
  test : Bool
  uopf : Bool
  wres : Bool
  testcase : Str
  fname : Str
  solvedcase : Str

/-- Ways to end before a run: exit with a code, or an exception that is not caught. -/
inductive Stop where
  | exit (n : ℕ)
  | raised

/-- `Option.convert_value` (optparse): numerals, membership in the choices, words unchanged; a word that does not fit ends in `parser.error`, exit code 2. -/
def convert (c : Conv) (ty : Ty) (v : Str) : Except Stop Val :=
  match ty with
  | .int => match c.int v with | some z => .ok (.int z) | none => .error (.exit 2)
  | .float => match c.float v with | some q => .ok (.float q) | none => .error (.exit 2)
  | .choice => if v ∈ AFFIRMATIVE ++ NEGATIVE then .ok (.str v) else .error (.exit 2)
  | .string => .ok (.str v)

/-- `option_callback` up to the name (main.py:38-48).  A word that is neither affirmative nor negative ends in an exception: `option.choices` is `None` for options of type
string, and `_` is not defined. -/
def callbackValue : Val → Except Stop Val
  | .str s => if s ∈ AFFIRMATIVE then .ok (.bool true) else if s ∈ NEGATIVE then .ok (.bool false) else .error .raised
  | v => .ok v

/-- `Option.process` (optparse) with `option_callback` (main.py:38-54); `v` is the word given as value. -/
def process (c : Conv) (e : Entry) (v : Str) (st : St) : Except Stop St :=
  match e.act with
  | .info => .error (.exit 0)
  | .flag .test => .ok { st with test := true }
  | .flag .uopf => .ok { st with uopf := true }
  | .flag .wres => .ok { st with wres := true }
  | .store .testcase => if v ∈ CASES then .ok { st with testcase := v } else .error (.exit 2)
  | .store .fname => .ok { st with fname := v }
  | .store .solvedcase => .ok { st with solvedcase := v }
  | .callback ty =>
    match convert c ty v with
    | .error x => .error x
    | .ok w =>
      match callbackValue w with
      | .error x => .error x
      | .ok w' => .ok { st with opts := Function.update st.opts (upper e.long) (some w') }

/-- `Option.takes_value` (optparse). -/
def takesValue : Act → Bool
  | .info => false
  | .flag _ => false
  | .store _ => true
  | .callback _ => true

/-- `_match_abbrev` (optparse): the option of that name, or the only one beginning so. -/
def matchLong (es : List Entry) (s : Str) : Option Entry :=
  match es.find? (fun e => e.long = s) with
  | some e => some e
  | none => match es.filter (fun e => s.isPrefixOf e.long) with | [e] => some e | _ => none

/-- `arg.split("=", 1)`: the part before the first `=`, and the part after it if there is one. -/
def splitEq : Str → Str × Option Str
  | [] => ([], none)
  | ch :: s => if ch = '=' then ([], some s) else (ch :: (splitEq s).1, (splitEq s).2)

/-- What a word does. -/
inductive Step where
  | rest
  | arg
  | done (r : Except Stop St)
  | want (k : Str → Except Stop St)

/-- `_process_long_opt` (optparse); `s` is the word without `--`. -/
def longStep (es : List Entry) (c : Conv) (s : Str) (st : St) : Step :=
  match matchLong es (splitEq s).1 with
  | none => .done (.error (.exit 2))
  | some e =>
    if takesValue e.act then
      match (splitEq s).2 with
      | some v => .done (process c e v st)
      | none => .want fun v => process c e v st
    else if (splitEq s).2.isSome then .done (.error (.exit 2)) else .done (process c e [] st)

/-- `_process_short_opts` (optparse); the characters after `-`. -/
def shortStep (es : List Entry) (c : Conv) : Str → St → Step
  | [], st => .done (.ok st)
  | ch :: more, st =>
    match es.find? (fun e => e.short = some ch) with
    | none => .done (.error (.exit 2))
    | some e =>
      if takesValue e.act then
        match more with
        | [] => .want fun v => process c e v st
        | _ => .done (process c e more st)
      else
        match process c e [] st with
        | .error x => .done (.error x)
        | .ok st' => shortStep es c more st'

/-- One round of `_process_args` (optparse). -/
def step (es : List Entry) (c : Conv) (a : Str) (st : St) : Step :=
  match a with
  | '-' :: '-' :: [] => .rest
  | '-' :: '-' :: s => longStep es c s st
  | '-' :: ch :: s => shortStep es c (ch :: s) st
  | _ => .arg

/-- `parse_args` (optparse): the other arguments and what was collected. -/
def parse (es : List Entry) (c : Conv) : List Str → List Str → St → Except Stop (List Str × St)
  | [], l, st => .ok (l, st)
  | a :: args, l, st =>
    match step es c a st with
    | .rest => .ok (l ++ args, st)
    | .arg => parse es c args (l ++ [a]) st
    | .done (.error x) => .error x
    | .done (.ok st') => parse es c args l st'
    | .want k =>
      match args with
      | [] => .error (.exit 2)
      | v :: args' =>
        match k v with
        | .error x => .error x
        | .ok st' => parse es c args' l st'

/-- The functions the commands call. -/
inductive Runner where
  | runpf
  | runopf
  | runuopf
  | runopf_w_res
  deriving DecidableEq

/-- The case: a file name or a built-in case. -/
inductive Data where
  | file (s : Str)
  | builtin (s : Str)
  deriving DecidableEq

/-- What a command does. -/
inductive Outcome where
  | stop (s : Stop)
  | tests
  | run (f : Runner) (d : Data) (opts : Opts) (fname solvedcase : Str)

/-- The state before parsing: `ppopt = ppoption()` and the defaults of main.py:91-110. -/
def start : St := ⟨defaults, false, false, false, "case9".toList, [], []⟩

/-- Which function `opf` calls (main.py:186-193); with both flags a message is printed and `runuopf` is called. -/
def runnerOf (opf : Bool) (st : St) : Runner :=
  if opf then if st.uopf then .runuopf else if st.wres then .runopf_w_res else .runopf else .runpf

/-- `parse_options` and the commands `pf` and `opf` (main.py:139-194).  The name of a built-in case has been checked by `optparse`. -/
def command (opf : Bool) (c : Conv) (args : List Str) : Outcome :=
  match parse (entries opf) c args [] start with
  | .error x => .stop x
  | .ok (l, st) =>
    match l with
    | _ :: _ :: _ => .stop (.exit 2)
    | [f] => if st.test then .tests else .run (runnerOf opf st) (.file f) st.opts st.fname st.solvedcase
    | [] => if st.test then .tests else .run (runnerOf opf st) (.builtin st.testcase) st.opts st.fname st.solvedcase

/-- The code the process exits with (main.py:164-165, 172-175, 183-184, 194): `tests` is the status of the test suite, `runs` says whether the function called reports success,
`none` if it raises; an exception that is not caught ends the interpreter with code 1. -/
def exitCode (tests : ℕ) (runs : Runner → Data → Opts → Str → Str → Option Bool) : Outcome → ℕ
  | .stop (.exit n) => n
  | .stop .raised => 1
  | .tests => tests
  | .run f d o x s => match runs f d o x s with | some true => 0 | some false => 2 | none => 1

end Verif.Cli
