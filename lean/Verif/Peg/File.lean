import Verif.Peg.Build
import Verif.Export.Wolfram
/-
Model of `ParserSettings::parse_file` (`projects/sm-ast/src/parser/parse.rs:18-24`): a transition system
whose steps are the system calls, so that a crash may fall between any two of them.

Outside the model: other processes writing to the same files, loss of data that the operating system has
acknowledged, directories, permissions (they show up only as errors).  A system call may fail at any time.
`wolfram_wxf::to_wolfram_bytes` beyond the conversion of `Verif.Export.Wolfram` is a parameter `encode`;
`none` is a panic in it.
-/
namespace SM.Peg

/-- Contents of a file. -/
abbrev Bytes := List UInt8

/-- A file system: names refer to files, files hold bytes.  Several names may refer to one file. -/
structure FS where
  entry : Str → Option Nat
  data : Nat → Bytes

/-- UTF-8. -/
def utf8 (s : Str) : Bytes := s.flatMap String.utf8EncodeChar

/-- Everything `parse_file` depends on besides the file system: the settings' `file` (parser/mod.rs:7-11), the
Unicode tables, the messages of parse errors, and the dependencies used for the export. -/
structure FileEnv where
  uni : Uni
  file : Str
  errorText : Str → Str
  cap : Str → Str
  encode : WValue → Option Bytes

/-- parse.rs:29-42 `parse`. -/
def FileEnv.parse (e : FileEnv) (text : Str) : SMResult AST :=
  parseText e.uni { file := e.file, input := text, errorText := e.errorText text }

/-- What `parse_file` is about to do. -/
inductive Phase where
  /-- parse.rs:19 -/
  | read
  /-- parse.rs:20 -/
  | parse (text : Str)
  /-- parse.rs:21 -/
  | create (a : AST)
  /-- parse.rs:22, the argument -/
  | encode (ino : Nat) (a : AST)
  /-- parse.rs:22, `write_all` with these bytes left -/
  | write (ino : Nat) (rest : Bytes)
  /-- returned or panicked -/
  | done (r : SMResult Unit)

/-- One step of `parse_file(from, to)`. -/
inductive Step (e : FileEnv) (src tgt : Str) : FS × Phase → FS × Phase → Prop
  /-- parse.rs:19, `read_to_string` succeeds only on valid UTF-8 -/
  | readOk (fs : FS) (ino : Nat) (text : Str) : fs.entry src = some ino → fs.data ino = utf8 text →
    Step e src tgt (fs, .read) (fs, .parse text)
  /-- parse.rs:19, any failure -/
  | readErr (fs : FS) (m : Str) : Step e src tgt (fs, .read) (fs, .done (.err (.ioError m)))
  /-- parse.rs:20 -/
  | parseOk (fs : FS) (text : Str) (a : AST) : e.parse text = .ok a → Step e src tgt (fs, .parse text) (fs, .create a)
  /-- parse.rs:20, `?` -/
  | parseErr (fs : FS) (text : Str) (x : SMError) : e.parse text = .err x →
    Step e src tgt (fs, .parse text) (fs, .done (.err x))
  /-- parse.rs:20, a panic inside the parser -/
  | parsePanic (fs : FS) (text : Str) : e.parse text = .panic → Step e src tgt (fs, .parse text) (fs, .done .panic)
  /-- parse.rs:21, the target exists and is truncated -/
  | truncate (fs : FS) (a : AST) (ino : Nat) : fs.entry tgt = some ino →
    Step e src tgt (fs, .create a) ({ fs with data := fun i => if i = ino then [] else fs.data i }, .encode ino a)
  /-- parse.rs:21, the target does not exist: a new empty file is made -/
  | make (fs : FS) (a : AST) (ino : Nat) : fs.entry tgt = none → (∀ p, fs.entry p ≠ some ino) →
    Step e src tgt (fs, .create a) 
      (⟨fun p => if p = tgt then some ino else fs.entry p, fun i => if i = ino then [] else fs.data i⟩, .encode ino a)
  /-- parse.rs:21, `?` -/
  | createErr (fs : FS) (a : AST) (m : Str) : Step e src tgt (fs, .create a) (fs, .done (.err (.ioError m)))
  /-- parse.rs:22, `to_wolfram_bytes` -/
  | encodeOk (fs : FS) (ino : Nat) (a : AST) (b : Bytes) : e.encode (a.toWolfram e.cap) = some b →
    Step e src tgt (fs, .encode ino a) (fs, .write ino b)
  /-- parse.rs:22, `to_wolfram_bytes` panics -/
  | encodePanic (fs : FS) (ino : Nat) (a : AST) : e.encode (a.toWolfram e.cap) = none →
    Step e src tgt (fs, .encode ino a) (fs, .done .panic)
  /-- parse.rs:22, one `write` inside `write_all` -/
  | writeSome (fs : FS) (ino : Nat) (x y : Bytes) : x ≠ [] →
    Step e src tgt (fs, .write ino (x ++ y))
      ({ fs with data := fun i => if i = ino then fs.data i ++ x else fs.data i }, .write ino y)
  /-- parse.rs:22, `?` -/
  | writeErr (fs : FS) (ino : Nat) (b : Bytes) (m : Str) :
    Step e src tgt (fs, .write ino b) (fs, .done (.err (.ioError m)))
  /-- parse.rs:23 -/
  | finish (fs : FS) (ino : Nat) : Step e src tgt (fs, .write ino []) (fs, .done (.ok ()))

/-- The states that a run of `parse_file(from, to)` started with `fs` passes through. -/
inductive Reach (e : FileEnv) (src tgt : Str) (fs : FS) : FS × Phase → Prop
  | start : Reach e src tgt fs (fs, .read)
  | step {s s' : FS × Phase} : Reach e src tgt fs s → Step e src tgt s s' → Reach e src tgt fs s'

end SM.Peg
