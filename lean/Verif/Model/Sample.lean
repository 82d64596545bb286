import Verif.Model.Outcome
/-
Model of `getDset`, /repo/sample/tester.c 42-77: the data set is read from a text file.

Simplifications: the file can be read once it is open; a byte of the file is a `Char`; `atof` is a parameter; the list of numbers is a list (property C01) and the returned array is that list;
`isspace` is that of the "C" locale.
-/
namespace Verif.Sample

/-- `char* delim = " ,\n\t\r\v"`, tester.c 54. -/
def isDelim (c : Char) : Bool := c = ' ' || c = ',' || c = '\n' || c = '\t' || c = '\r' || c = '\x0b'

/-- `isspace`. -/
def isSpace (c : Char) : Bool := c = ' ' || c = '\n' || c = '\t' || c = '\r' || c = '\x0b' || c = '\x0c'

/-- The successive contents of `buff` after `fgets(buff, 2048, fp)`, tester.c 55: at most 2047 characters, up to and including a line feed. `acc` has been read and `room` more characters fit. -/
def chunks : (room : Nat) → (acc : List Char) → List Char → List (List Char)
  | _, acc, [] => if acc = [] then [] else [acc]
  | room, acc, c :: r => if c = '\n' ∨ room ≤ 1 then (acc ++ [c]) :: chunks 2047 [] r else chunks (room - 1) (acc ++ [c]) r

/-- The token that ends. -/
def flush (acc : List Char) : List (List Char) := if acc = [] then [] else [acc]

/-- The results of `strtok(buff, delim)` and of the calls `strtok(NULL, delim)` after it, tester.c 56, 63: the string ends at a NUL byte. -/
def tokens : (acc : List Char) → List Char → List (List Char)
  | acc, [] => flush acc
  | acc, c :: r => if c = '\x00' then flush acc else if isDelim c then flush acc ++ tokens [] r else tokens (acc ++ [c]) r

/-- `strlen(toks) == 1 && isspace(toks[0])`, tester.c 57: the loop over the line ends. -/
def single : List Char → Bool
  | [c] => isSpace c
  | _ => false

variable {V : Type}

/-- The loop over the tokens of a line, tester.c 57-64. -/
def lineValues (atof : List Char → V) (line : List Char) : List V := ((tokens [] line).takeWhile fun t => !single t).map atof

/-- `getDset`, tester.c 42-77, called with `*rs` 0 (line 84): the values, `*rs` and `*cs`. The counter is an `unsigned int`, and so is the number of values in `(index_t)list->size/(*rs)`, line 68. -/
def getDset (atof : List Char → V) (file : List Char) : Outcome (List V × Nat × Nat) :=
  let values := (chunks 2047 [] file).flatMap (lineValues atof)
  let rs := (chunks 2047 [] file).length % 2 ^ 32
  if rs = 0 then .ub "division by zero" else .ok (values, rs, values.length % 2 ^ 32 / rs)

/-- `getDset` with the name of the file, tester.c 46-51: if it cannot be opened, `sprintf` writes "Could not open file" (19 characters), the name, a line feed and a NUL byte into the 2048 bytes of `buff`,
and the program ends with the exit status 0. -/
def getDsetNamed (atof : List Char → V) (name : List Char) (file : Option (List Char)) : Outcome (List V × Nat × Nat) :=
  match file with
  | none => if 19 + name.length + 2 ≤ 2048 then .abort "exit(0)" else .ub "sprintf writes past the end of buff"
  | some t => getDset atof t

end Verif.Sample
