import Verif.Dict

/-!
# Model of `PygsflowCompatBase.write` and `read` (`dany/stream_util.py`)

A file system maps paths to byte strings.  `pickle` is a parameter: `dumps` turns an object into bytes and
`loads` reads the object at the beginning of a byte string, or fails.  A call of `write` is a list of effects
on the file system, so that it can be cut off anywhere.
-/

namespace Dany.Store

variable {P B O : Type*} [DecidableEq P]

/-- `pickle.dump` and `pickle.load` -/
structure Pickle (B O : Type*) where
  dumps : O → List B
  loads : List B → Option O

/-- What is known of `pickle`: an object is read back from its own bytes, whatever follows, and nothing is read from a
byte string that ends too early (the last byte of a pickle is its only STOP instruction). -/
structure Pickle.Faithful (p : Pickle B O) : Prop where
  back : ∀ o rest, p.loads (p.dumps o ++ rest) = some o
  short : ∀ o b, b <+: p.dumps o → b ≠ p.dumps o → p.loads b = none

/-- The contents of all files -/
abbrev Files (P B : Type*) := P → Option (List B)

/-- One effect on the file system: `open(f, "wb")` creates the file or empties it; a block of bytes arrives at the
end of the file. -/
inductive Effect (P B : Type*) where
  | truncate (f : P)
  | append (f : P) (b : List B)

/-- The effect takes place. -/
def Effect.run (fs : Files P B) : Effect P B → Files P B
  | .truncate f => fun g => if g = f then some [] else fs g
  | .append f b => fun g => if g = f then some ((fs f).getD [] ++ b) else fs g

/-- `write(f)` (stream_util.py:1500-1511) as a list of effects: `open`, then the bytes of the object in blocks of any
size. -/
def write (f : P) (blocks : List (List B)) : List (Effect P B) := .truncate f :: blocks.map (.append f)

/-- The effects take place one after the other. -/
def runAll (fs : Files P B) (l : List (Effect P B)) : Files P B := l.foldl Effect.run fs

/-- The outcome of `read(f)` -/
inductive Read (O : Type*) where
  | value (o : O)
  | noFile
  | broken
  deriving DecidableEq

/-- `read(f)` (stream_util.py:1513-1529): a missing file raises `FileNotFoundError`, bytes that are not a pickle
raise `EOFError` or `UnpicklingError` (`broken`). -/
def read (p : Pickle B O) (fs : Files P B) (f : P) : Read O :=
  match fs f with
  | none => .noFile
  | some b => match p.loads b with
    | none => .broken
    | some o => .value o

end Dany.Store
