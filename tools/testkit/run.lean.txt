import Verif.Testkit.Base
open Yupp
def tbl : List (String × Node) := @TBL@
def libs : List (Str × Str) := @LIBS@
def jq (s : Str) : String := "\"" ++ String.join (s.map fun c => if c == '"' || c == '\\' then "\\" ++ c.toString else if c == '\n' then "\\n" else if c == '\t' then "\\t" else c.toString) ++ "\""
partial def jn : Node → String
 | .int n => s!"[\"i\",\"{n}\"]"
 | .float f => s!"[\"f\",{jq f.str}]"
 | .bool b => s!"[\"b\",\"{b}\"]"
 | .list xs => s!"[\"l\",[{String.intercalate "," (xs.map jn)}]]"
 | .none => "[\"n\",\"\"]"
 | x => match x.text? with | some t => s!"[\"s\",{jq t}]" | none => "[\"?\",\"\"]"
def ask (key : String) : Option Node := match tbl.find? (·.1 == key) with
 | some (_, v) => some v
 | none => dbg_trace ("REQ\t" ++ key); none
def pyParse (t : Str) : Option PyCode := match ask s!"[\"parse\",{jq t}]" with
 | some (.list xs) => some ⟨t, xs.filterMap Node.text?⟩
 | _ => none
def pyEval (_ : PyState) (c : PyCode) (f : Frame) : Option Node :=
  ask s!"[\"eval\",{jq c.text},[{String.intercalate "," (f.map fun p => s!"[{jq p.1},{jn p.2}]")}]]"
def other (f : Str) (as : List Node) (seen : List Node) : Option (Node × List Node) :=
  (ask s!"[\"call\",{jq f},[{String.intercalate "," (as.map jn)}]]").map (·, seen)
def unq (s : Str) : Str := match s with
 | '"' :: r => replace (lit "\\n") (lit "\n") (replace (lit "\\t") (lit "\t") r.dropLast)
 | '\'' :: r => r.dropLast
 | s => s
def bx : BExt := { other := other, literal := fun s => some (unq s) }
def names := ["and","or","xor","add","sub","mul","mod","lt","le","gt","ge","eq","ne","not","neg","inc","dec","len","list","range","reversed","q","qs","unq","str","sum","join","split","replace","zfill","lower","upper","car","cdr","index","unique","islist","hex","getslice","SPACE","TAB","sqrt","pow","round","exp","cos","div","print","atoi","__TITLE__","__FILE__","__OUTPUT_FILE__","__MODULE_NAME__","lshift","rshift","capitalize","swapcase","strip","find","count","ord","chr","abs","strlen","isdigit","crc32"]
def env : EEnv where
  pe := { inputFile := lit @NAME@, outputPython := @PY@, unq := unq,
          readLib := fun f => (libs.find? (·.1 == f)) }
  cfg := @CFG@
  passage := @PASSAGE@
  builtin := fun _ n => if names.contains (String.ofList n) then some .fn else if n == lit "e" then some (.const (.float ⟨lit "2.718281828459045", false, none⟩)) else if n == lit "pi" then some (.const (.float ⟨lit "3.141592653589793", false, none⟩)) else none
  call := fun _ f as seen => builtinCall bx f as seen
  pyParse := pyParse
  pyEval := pyEval
def run (t : Str) : String := match runAt env (fun _ => []) 3000 (some (lit @NAME@)) [] t with
  | .ok r => match r.raw with
     | .str s => String.ofList (replaceSteady (reduceEmptiness env.cfg s))
     | .res r => String.ofList (r.reduceEmptiness env.cfg).replaceSteady.txt
     | .tree s => "TREE " ++ String.ofList s
     | .raised => "raised"
  | .err => "err"
  | .timeout => "timeout"
def main : IO Unit := IO.FS.writeFile "@OUT@" (run (lit @SRC@))
