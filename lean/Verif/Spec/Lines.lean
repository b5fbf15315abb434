import Verif.Spec.BufferStd
import Verif.Spec.Scan
/- Specifications for C130 and C131: text as a list of lines. -/
namespace Vmap
namespace Spec

/-- The text cut behind every `d`; what follows the last `d`, if anything, is the last row. -/
def rows (d : Byte) : List Byte → List (List Byte)
  | [] => []
  | b :: l =>
    if b = d then [b] :: rows d l
    else match rows d l with
      | [] => [[b]]
      | p :: ps => (b :: p) :: ps

/-- A row without its line ending: `\n` or `\r\n`. -/
def bare : List Byte → List Byte
  | [] => []
  | [13, 10] => []
  | [10] => []
  | b :: l => b :: bare l

/-- A row without the delimiter at its end. -/
def untail (d : Byte) : List Byte → List Byte
  | [] => []
  | [b] => if b = d then [] else [b]
  | b :: l => b :: untail d l

/-- What a reader of lines gets for a row: the line, or an error if it is not text. -/
def lineOf (valid : List Byte → Bool) (row : List Byte) : IoResult (List Byte) :=
  if valid row then .ok (bare row)
  else .error (.new .invalidData "stream did not contain valid UTF-8")

end Spec

/-- After an end of file nothing more is taken from the inner reader. -/
def EofIsFinal (ev : List ReadEvent) : Prop :=
  ∀ before e after stored, ev = before ++ e :: after → e.offered ≠ [] → e.resp = .ok 0 stored →
    taken after = []

/-- What became of one item of an iterator over a `BufReader`: the bytes it took from the stream,
the calls of the inner reader made for it, and what it yielded. -/
structure Row where
  raw : List Byte
  calls : List ReadEvent
  item : IoResult (List Byte)

/-- The row is right: its bytes end with the first `d`, or with the end of file, and `f` of them is
what was yielded; or the inner reader failed, and its error was yielded. -/
def Row.Right (d : Byte) (f : List Byte → IoResult (List Byte)) (x : Row) : Prop :=
  (x.item = f x.raw ∧ ((∃ line, x.raw = line ++ [d] ∧ d ∉ line) ∨
      (x.raw ≠ [] ∧ d ∉ x.raw ∧ SaidEof x.calls))) ∨
  (∃ e, x.item = .error e ∧ d ∉ x.raw ∧ SaidErr x.calls e)

/-- The inner reader did not fail, except that it may have been interrupted. -/
def NeverFailed (ev : List ReadEvent) : Prop :=
  ∀ x ∈ ev, ∀ e stored, x.resp = .err e stored → e.kind = .interrupted

end Vmap
