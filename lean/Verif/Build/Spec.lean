/-
Specification of the build script, independent of its model: rustc command lines, the meaning of their
`target-feature`, `target-cpu` and `allow-features` options, and the text of `rustc -vV`.
-/
namespace Verif.Build.Spec

/-- A string. -/
abbrev Str := List Char

/-- One argument of a rustc command line. The separate form `-C opt` is the argument `-C` (an `other`) followed by
the unprefixed option. -/
inductive Arg where
  /-- `[-C]target-feature=±f,±f,...` -/
  | features (joined : Bool) (l : List (Bool × Str))
  /-- `[-C]target-cpu=name` -/
  | cpu (joined : Bool) (name : Str)
  /-- `[-Z]allow-features=f,f,...` -/
  | allow (joined : Bool) (l : List Str)
  /-- any other argument -/
  | other (s : Str)

/-- Words separated by a character. -/
def joinWith (c : Char) : List Str → Str
  | [] => []
  | [x] => x
  | x :: l => x ++ c :: joinWith c l

/-- The text of `+f` or `-f`. -/
def itemText (x : Bool × Str) : Str := (if x.1 then '+' else '-') :: x.2
/-- The text of an argument. -/
def Arg.text : Arg → Str
  | .features j l => (if j then "-C".toList else []) ++ "target-feature=".toList ++ joinWith ',' (l.map itemText)
  | .cpu j n => (if j then "-C".toList else []) ++ "target-cpu=".toList ++ n
  | .allow j l => (if j then "-Z".toList else []) ++ "allow-features=".toList ++ joinWith ',' l
  | .other s => s

/-- `s` does not begin with any of the options, with or without prefix. -/
def Plain (s : Str) : Prop :=
  ∀ pre ∈ ["".toList, "-C".toList, "-Z".toList],
    ∀ o ∈ ["target-feature=".toList, "target-cpu=".toList, "allow-features=".toList], ¬ (pre ++ o <+: s)

/-- Names contain no separator; other arguments are none of the three options. -/
def Arg.WF : Arg → Prop
  | .features _ l => ∀ x ∈ l, ',' ∉ x.2 ∧ '\x1f' ∉ x.2
  | .cpu _ n => '\x1f' ∉ n
  | .allow _ l => ∀ x ∈ l, ',' ∉ x ∧ '\x1f' ∉ x
  | .other s => '\x1f' ∉ s ∧ Plain s

/-- Cargo's CARGO_ENCODED_RUSTFLAGS: the arguments separated by 0x1f. -/
def encode (args : List Arg) : Str := joinWith '\x1f' (args.map Arg.text)

/-- All mentions of target features, in order. -/
def mentions (args : List Arg) : List (Bool × Str) :=
  args.flatMap fun a => match a with
    | .features _ l => l
    | _ => []

/-- `b` is what the command line says about feature `f`: the last mention, or `dflt` if there is none. -/
inductive Says (args : List Arg) (f : Str) (dflt : Bool) : Bool → Prop
  | last (pre post : List (Bool × Str)) (b : Bool) (h : mentions args = pre ++ (b, f) :: post)
      (hl : ∀ x ∈ post, x.2 ≠ f) : Says args f dflt b
  | unmentioned (h : ∀ x ∈ mentions args, x.2 ≠ f) : Says args f dflt dflt

/-- Decimal numeral without leading zeros. -/
def dec (n : Nat) : Str :=
  if h : n < 10 then [Char.ofNat (48 + n)] else dec (n / 10) ++ [Char.ofNat (48 + n % 10)]
termination_by n
decreasing_by omega

/-- Two-digit numeral. -/
def dec2 (n : Nat) : Str := if n < 10 then '0' :: dec n else dec n

/-- Lines of text, each ended by LF. -/
def unlines (ls : List Str) : Str := ls.flatMap (· ++ ['\n'])
/-- A decimal numeral of value `n`: at least one digit, possibly after a plus sign. -/
def Numeral (s : Str) (n : Nat) : Prop :=
  ∃ ds : Str, (s = ds ∨ s = '+' :: ds) ∧ ds ≠ [] ∧ (∀ c ∈ ds, '0' ≤ c ∧ c ≤ '9') ∧
    ds.foldl (fun a c => 10 * a + (c.toNat - '0'.toNat)) 0 = n
/-- A text that consists of the given lines: each ends with LF or CR LF; at the end of the last one it may be missing. -/
inductive Text : List Str → Str → Prop where
  | nil : Text [] []
  | last {x} (h : x ≠ []) : Text [x] x
  | lf {x ls t} (h : Text ls t) : Text (x :: ls) (x ++ '\n' :: t)
  | crlf {x ls t} (h : Text ls t) : Text (x :: ls) (x ++ '\r' :: '\n' :: t)

/-- SPARC V8 processors with the CASA instruction (LEON3/LEON4 and Myriad). -/
def casaProcessors : List String := ["myriad2", "myriad2.1", "myriad2.2", "myriad2.3", "ma2100", "ma2150", "ma2155",
  "ma2450", "ma2455", "ma2x5x", "ma2080", "ma2085", "ma2480", "ma2485", "ma2x8x", "gr712rc", "leon4", "gr740"]
/-- SPARC V9 processors. -/
def v9Processors : List String := ["v9", "ultrasparc", "ultrasparc3", "niagara", "niagara2", "niagara3", "niagara4"]

end Verif.Build.Spec
