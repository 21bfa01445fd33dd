import Verif.Go.Bytes
import Verif.Go.Strconv
/-!
# The stack trace and the development error page: recovery.go:14-57, 81-96, 103-126 and app_util.go:256-331
-/
namespace Verif.Page
open Verif.Go

/-- `html.EscapeString` (standard library), one byte (recovery.go:104). -/
def escByte (c : UInt8) : Str :=
  if c = 38 then b!"&amp;" else if c = 39 then b!"&#39;" else if c = 60 then b!"&lt;" else if c = 62 then b!"&gt;"
  else if c = 34 then b!"&#34;" else [c]

/-- `html.EscapeString` (recovery.go:104). -/
def escape (s : Str) : Str := s.flatMap escByte

/-- `strings.Split(line, " (")` (recovery.go:112). -/
def splitParen : Str → List Str
  | [] => [[]]
  | [c] => [[c]]
  | c :: d :: s =>
    if c = 32 ∧ d = 40 then [] :: splitParen s
    else match splitParen (d :: s) with
      | x :: xs => (c :: x) :: xs
      | [] => [[c]]

/-- recovery.go:106-122: one line of the trace (already escaped). -/
def styleLine : Str → Str
  | [] => []
  | c :: l =>
    if c = 47 then
      let line := match splitParen (c :: l) with
        | p :: q :: ps => (b!"<span class=\"file\">" ++ p ++ b!"</span> (") ++ (q :: ps).flatten
        | _ => c :: l
      b!"<div class=\"line odd\">" ++ line ++ b!"</div>"
    else b!"<div class=\"line even\">" ++ (c :: l) ++ b!"</div>"

/-- recovery.go:103-126 `styleStack`. -/
def styleStack (stack : Str) : Str := join1 10 ((splitOn1 10 (escape stack)).map styleLine)

/-- recovery.go:15-16. -/
def page0 : Str := b!"<html>\n<head><title>PANIC: "
/-- recovery.go:16-51: up to the heading (the style sheet). -/
def page1 : Str := b!"</title>\n<style type=\"text/css\">\nhtml, body {\n\tfont-family: \"Roboto\", sans-serif;\n\tcolor: #333333;\n\tbackground-color: #3e3d49;\n\tmargin: 0px;\n}\nh1 {\n\tcolor: #ffffff;\n\tbackground-color: #d04526;\n\tpadding: 20px;\n}\npre.message {\n\tfont-weight: bold;\n}\npre.message,\n.stack {\n\tfont-family: Menlo, monospace;\n\tfont-size: 13px;\n\tmargin: 25px 20px;\n\tpadding: 15px;\n\tbackground-color: #ffffff;\n}\n.stack .line {\n\tmargin: 2px 0;\n}\n.stack .odd {\n\tmargin: 15px 0 5px;\n}\n.stack .even {\n\tmargin: 5px 0 15px 2em;\n}\n.stack .file {\n\tfont-weight: bold;\n}\n</style>\n</head><body>\n<h1>PANIC: "
/-- recovery.go:51-52. -/
def page2 : Str := b!"</h1>\n<pre class=\"message\">"
/-- recovery.go:52-53. -/
def page3 : Str := b!"</pre>\n<div class=\"stack\">"
/-- recovery.go:53-55. -/
def page4 : Str := b!"</div>\n</body>\n</html>"

/-- recovery.go:91-92: the page for a panic value printed as `err` (`%s`), `typ` (`%T`) and `val` (`%#v`). -/
def page (err typ val stack : Str) : Str :=
  page0 ++ err ++ page1 ++ err ++ page2 ++ (typ ++ b!": " ++ val) ++ page3 ++ styleStack stack ++ page4

/-! ## The trace -/

/-- One frame as `runtime.Caller` reports it, with the name `runtime.FuncForPC` gives (`none`: unknown) and the program
counter printed in hex (app_util.go:272, 310). -/
structure Frame where
  file : Str
  line : Nat
  pc : Str
  fn : Option Str

/-- `bytes.TrimLeft(s, " \t")` (app_util.go:305). -/
def trimL (s : Str) : Str := s.dropWhile fun c => c = 32 || c = 9

/-- `bytes.Trim(s, " \t")` (app_util.go:305). -/
def trim (s : Str) : Str := (trimL (trimL s).reverse).reverse

/-- app_util.go:300-306 `source`; `n` is the 1-based line. -/
def source (lines : List Str) (n : Int) : Str :=
  if n - 1 < 0 ∨ n - 1 ≥ lines.length then b!"???" else trim (lines.getD (n - 1).toNat [])

/-- After the last slash (app_util.go:322-324). -/
def afterSlash (s : Str) : Str := if 47 ∈ s then (s.reverse.takeWhile (· ≠ 47)).reverse else s

/-- After the first period (app_util.go:325-327). -/
def afterDot (s : Str) : Str := if 46 ∈ s then (s.dropWhile (· ≠ 46)).drop 1 else s

/-- `bytes.Replace(name, "·", ".", -1)` (app_util.go:328; the centered dot is U+00B7). -/
def undot : Str → Str
  | [] => []
  | [c] => [c]
  | c :: d :: s => if c = 0xC2 ∧ d = 0xB7 then 46 :: undot s else c :: undot (d :: s)

/-- app_util.go:309-331 `function`. -/
def function (fn : Option Str) : Str :=
  match fn with
  | none => b!"???"
  | some name => undot (afterDot (afterSlash name))

/-- app_util.go:269-270: the file loaded last and its lines. -/
structure Loaded where
  file : Str
  lines : List Str

/-- app_util.go:271-287: one frame; `read` is the file system. -/
def stackFrame (read : Str → Option Str) (f : Frame) (l : Loaded) : Str × Loaded :=
  let head := f.file ++ b!":" ++ natDec f.line ++ b!" (0x" ++ f.pc ++ b!")\n"
  if f.file ≠ l.file then
    match read f.file with
    | none => (head, l)
    | some data => (head ++ (b!"\t" ++ function f.fn ++ b!": " ++ source (splitOn1 10 data) f.line ++ b!"\n"), ⟨f.file, splitOn1 10 data⟩)
  else (head ++ (b!"\t" ++ function f.fn ++ b!": " ++ source l.lines f.line ++ b!"\n"), l)

/-- app_util.go:264-288 `Stack`: the frames above `skip`. -/
def stackFrom (read : Str → Option Str) : List Frame → Loaded → Str
  | [], _ => []
  | f :: fs, l => (stackFrame read f l).1 ++ stackFrom read fs (stackFrame read f l).2

/-- app_util.go:264-288 `Stack`. -/
def stack (read : Str → Option Str) (frames : List Frame) (skip : Nat) : Str :=
  stackFrom read (frames.drop skip) ⟨[], []⟩

/-- app_util.go:290-297 `FileSource`; `none` is the error. -/
def fileSource (read : Str → Option Str) (file : Str) (n : Int) : Option Str :=
  (read file).map fun data => source (splitOn1 10 data) n

end Verif.Page
