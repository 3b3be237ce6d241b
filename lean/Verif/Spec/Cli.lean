import Verif.Spec.Command
import Verif.Model.Cli
/-!
# The dialogue and the options of the command, for C88 and C89
-/

namespace Yupp.Spec

/-- White space only. -/
def Blank (t : Str) : Prop := ∀ c ∈ t, isSpace c = true

/-- The line holds the word `w` and white space only. -/
def Says (w l : Str) : Prop := ∃ a b, l = a ++ (w ++ b) ∧ Blank a ∧ Blank b

/-- A line of a text: neither `test` nor `exit`. -/
def TextLine (l : Str) : Prop := ¬ Says (lit "test") l ∧ ¬ Says (lit "exit") l

/-- Lines below each other. -/
def typedText (ls : List Str) : Str := (ls.map (· ++ ['\n'])).flatten

/-- `Blocks lines ts`: in what is typed, `ts` are the texts to be translated. A text ends with the line `test`. What follows
    the line `exit` is not read, and what precedes it or the end of the input but is not followed by `test`, not translated. -/
inductive Blocks : List Str → List Str → Prop where
  | ends {ls} : (∀ l ∈ ls, TextLine l) → Blocks ls []
  | exit {ls x rest} : (∀ l ∈ ls, TextLine l) → Says (lit "exit") x → Blocks (ls ++ x :: rest) []
  | test {ls x rest ts} : (∀ l ∈ ls, TextLine l) → Says (lit "test") x → Blocks rest ts →
      Blocks (ls ++ x :: rest) (typedText ls :: ts)

/-- What is printed for the outcome of a translation: an empty line, the text after an arrow unless there is none, and whether it
    has succeeded. Nothing is told of an exception (but in the log). -/
inductive Shown (reduce : Bool) (arrow : Str) : Raw → Str → Prop where
  | error : Shown reduce arrow .raised ['\n']
  | noTree : Shown reduce arrow (.tree []) ['\n']
  | tree {t} : t ≠ [] → Shown reduce arrow (.tree t) ('\n' :: (arrow ++ (t ++ ['\n'])))
  | nothing {raw} : FinalText reduce raw [] → Shown reduce arrow raw ('\n' :: lit "* OK *\n")
  | text {raw u} : FinalText reduce raw u → u ≠ [] → Shown reduce arrow raw ('\n' :: (arrow ++ (u ++ '\n' :: lit "* OK *\n")))

/-- The answers to texts, one after the other. `tr m t raw m'`: in the state `m` the text `t` comes to `raw` and `m'` is left. A blank
    text is passed over. -/
inductive Answers {σ : Type} (reduce : Bool) (tr : σ → Str → Raw → σ → Prop) : σ → List Str → Str → σ → Prop where
  | nil {m} : Answers reduce tr m [] [] m
  | blank {m t ts out m'} : Blank t → Answers reduce tr m ts out m' → Answers reduce tr m (t :: ts) out m'
  | text {m m1 m' t raw a ts out} : ¬ Blank t → tr m t raw m1 → Shown reduce (lit "--> ") raw a → Answers reduce tr m1 ts out m' →
      Answers reduce tr m (t :: ts) (a ++ out) m'

/-- The greeting: a test, unless the command is to be quiet. -/
inductive Greeting {σ : Type} (reduce : Bool) (tr : σ → Str → Raw → σ → Prop) : Bool → σ → Str → σ → Prop where
  | quiet {m} : Greeting reduce tr true m [] m
  | test {m m' raw a} : tr m startupText raw m' → Shown reduce (lit "--> ") raw a →
      Greeting reduce tr false m (lit "<-- " ++ (startupText ++ '\n' :: a)) m'

/-- The text given as an option, unless there is none or it is empty. -/
inductive Given {σ : Type} (reduce : Bool) (tr : σ → Str → Raw → σ → Prop) : Str → σ → Str → σ → Prop where
  | no {m} : Given reduce tr [] m [] m
  | text {m m' t raw a} : t ≠ [] → tr m t raw m' → Shown reduce [] raw a → Given reduce tr t m a m'

/-- The last value an option is given, else the default. -/
def lastOf (f : CliOpt → Option α) (d : α) (opts : List CliOpt) : α := (opts.filterMap f).getLast?.getD d

/-- The options by kind. -/
def trimOf : CliOpt → Option Bool | .trim b => some b | _ => none
def reduceOf : CliOpt → Option Bool | .reduce b => some b | _ => none
def browseOf : CliOpt → Option Bool | .browse b => some b | _ => none
def skipOf : CliOpt → Option Nat | .skipComments k => some k | _ => none
def outputDirOf : CliOpt → Option Str | .outputDir d => some d | _ => none
def directoryOf : CliOpt → Option Str | .directory d => some d | _ => none
def defineOf : CliOpt → Option Str | .define d => some d | _ => none
def givenText : CliOpt → Option Str | .text t => some t | _ => none
def givenSource : CliOpt → Option Str | .source t => some t | _ => none

end Yupp.Spec
