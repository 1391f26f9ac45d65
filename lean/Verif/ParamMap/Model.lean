import Verif.Cxx.Basic

/-!
Model of common/include/rofl/common/param_map.h and common/src/param_map.cpp.
A `std::string` is the list of its bytes, each byte written as the character with that code. The locale is "C".
Streams are the list of their characters and in good state when passed to `read`; writing does not fail.
`boost::lexical_cast<Value>` is the parameter `parse` (`none`: `bad_lexical_cast`) and `operator<<` the parameter `print`.
Messages on `std::cerr` and `std::cout` are not modelled.
-/
namespace Verif.ParamMap
open Verif

/-- A `std::string`, param_map.h:39. -/
abbrev Str := List Char

/-- `std::map<std::string, std::string>` in iteration order, param_map.h:39. -/
abbrev Table := List (Str × Str)

/-- `table_.find(k)`, param_map.h:109, 138, 177. -/
def find (t : Table) (k : Str) : Option Str := (t.find? fun p => p.1 == k).map Prod.snd

/-- `table_.erase(k)`, param_map.h:100, param_map.cpp:45, 83, 125. -/
def erase (t : Table) (k : Str) : Table := t.filter fun p => p.1 != k

/-- `table_.insert(std::make_pair(k, v))`: no effect if the key is present, param_map.h:101, param_map.cpp:46, 84, 126. -/
def insert (t : Table) (k v : Str) : Table :=
  match t with
  | [] => [(k, v)]
  | (a, b) :: r => if k < a then (k, v) :: (a, b) :: r else if k = a then (a, b) :: r else (a, b) :: insert r k v

/-- `setParamString`, param_map.cpp:124-127; also `erase` and `insert` in param_map.cpp:45-46, 83-84 and param_map.h:100-101. -/
def assign (t : Table) (k v : Str) : Table := insert (erase t k) k v

/-- `isspace` in the "C" locale, param_map.cpp:41. -/
def isSpace (c : Char) : Bool := c == ' ' || c == '\t' || c == '\n' || c == '\x0b' || c == '\x0c' || c == '\x0d'

/-- `std::istream::getline(buffer, room + 1)`: the characters stored (`acc` is reversed), the characters left, success. It
fails when the end is met before any character is extracted and when `room` characters are stored and more follow, param_map.cpp:39. -/
def getline (room : Nat) (acc : Str) : Str → Str × Str × Bool
  | [] => (acc.reverse, [], !acc.isEmpty)
  | c :: cs =>
    if c = '\n' then (acc.reverse, cs, true)
    else
      match room with
      | 0 => (acc.reverse, c :: cs, false)
      | r + 1 => getline r (c :: acc) cs

theorem getline_rest (room : Nat) (acc : Str) (s : Str) (h : 0 < s.length) (hok : (getline room acc s).2.2 = true) :
    (getline room acc s).2.1.length < s.length := by
  induction s generalizing room acc with
  | nil => simp at h
  | cons c cs ih =>
    unfold getline at hok ⊢
    split
    · simp
    · rename_i hc
      rw [if_neg hc] at hok
      cases room with
      | zero => simp at hok
      | succ r =>
        simp only at hok ⊢
        cases cs with
        | nil => simp [getline]
        | cons d ds =>
          have := ih r (c :: acc) (by simp) hok
          simp only [List.length_cons] at this ⊢
          omega

/-- `ss >> s` for a `std::string`: the word and the characters left, `none` when it fails, param_map.cpp:41. -/
def word (s : Str) : Option (Str × Str) :=
  let s := s.dropWhile isSpace
  let w := s.takeWhile fun c => !isSpace c
  if w.isEmpty then none else some (w, s.dropWhile fun c => !isSpace c)

/-- `std::stringstream ss(buffer); ss >> name >> value`, param_map.cpp:40-41 (the stream gets the buffer up to its first null
character). -/
def parseLine (buffer : Str) : Option (Str × Str) := do
  let s := buffer.takeWhile fun c => c != '\x00'
  let (name, r) ← word s
  let (value, _) ← word r
  return (name, value)

/-- Body of the loop, param_map.cpp:40-47. -/
def readLine (t : Table) (buffer : Str) : Table :=
  match parseLine buffer with
  | some (name, value) => if name.isEmpty || name.head? == some '#' then t else assign t name value
  | none => t

/-- `MAX_LEN`, param_map.h:44. -/
def maxLen : Nat := 2000

/-- `read(std::istream&)`, param_map.cpp:34-60. -/
def read (t : Table) (text : Str) : Table :=
  let g := getline (maxLen - 1) [] text
  if h : g.2.2 = true then
    if h0 : 0 < text.length then read (readLine t g.1) g.2.1 else readLine t g.1
  else t
termination_by text.length
decreasing_by exact getline_rest _ _ _ h0 h

/-- `read(std::string&)`, param_map.cpp:62-71; `none`: the file cannot be opened. -/
def readFile (t : Table) (content : Option Str) : Table × Bool :=
  match content with
  | none => (t, false)
  | some s => (read t s, true)

/-- `isalpha(c)` in the "C" locale. For a byte above 127 the argument is a negative `int` (`char` is signed): undefined
behaviour in the standard; `hi` is the behaviour of the implementation, param_map.cpp:149. -/
def isAlpha (hi : Char → Outcome Bool) (c : Char) : Outcome Bool :=
  if c.toNat < 128 then .ok (('A' ≤ c && c ≤ 'Z') || ('a' ≤ c && c ≤ 'z')) else hi c

/-- The standard behaviour, param_map.cpp:149. -/
def strict : Char → Outcome Bool := fun _ => .error (.ub .outOfBounds)

/-- `isOption`, param_map.cpp:148-150. -/
def isOption (hi : Char → Outcome Bool) (s : Str) : Outcome Bool :=
  match s with
  | c :: d :: _ => if c = '-' then isAlpha hi d else .ok false
  | _ => .ok false

/-- `argv[i]`; only the `argc` arguments may be read, param_map.cpp:78, 81. -/
def arg (argv : List Str) (i : Nat) : Outcome Str :=
  match argv[i]? with
  | some s => .ok s
  | none => .error (.ub .outOfBounds)

/-- Body of the loop, param_map.cpp:77-94. -/
def readArg (hi : Char → Outcome Bool) (argv : List Str) (t : Table) (argi : Nat) : Outcome Table := do
  let paramName ← arg argv argi
  if argi + 1 < argv.length then
    let o ← isOption hi paramName
    if o then
      let paramValue ← arg argv (argi + 1)
      let o' ← isOption hi paramValue
      if o' then return t else return assign t (paramName.drop 1) paramValue
    else return t
  else return t

/-- Loop of `read(int, char**)`, param_map.cpp:75-95. -/
def readArgsFrom (hi : Char → Outcome Bool) (argv : List Str) (t : Table) (argi : Nat) : Outcome Table := do
  if argi < argv.length then
    let t' ← readArg hi argv t argi
    readArgsFrom hi argv t' (argi + 1)
  else return t
termination_by argv.length - argi

/-- `read(int, char**)`, param_map.cpp:73-97. -/
def readArgs (hi : Char → Outcome Bool) (t : Table) (argv : List Str) : Outcome Table := readArgsFrom hi argv t 1

/-- `write(std::ostream&, const std::string&)`, param_map.cpp:106-111. -/
def writePrefix (t : Table) (linePrefix : Str) : Str := t.flatMap fun p => linePrefix ++ p.1 ++ [' '] ++ p.2 ++ ['\n']

/-- `write(std::ostream&)`, param_map.cpp:99-104. -/
def write (t : Table) : Str := t.flatMap fun p => p.1 ++ [' '] ++ p.2 ++ ['\n']

variable {Value : Type}

/-- `setParam`, param_map.h:95-102. -/
def setParam (print : Value → Str) (t : Table) (k : Str) (x : Value) : Table := assign t k (print x)

/-- `getParam`, param_map.h:106-131: `value` is the previous content of the reference; returns the table, the content of the
reference and the result. -/
def getParam (parse : Str → Option Value) (print : Value → Str) (t : Table) (k : Str) (value defaultValue : Value) :
    Table × Value × Bool :=
  match find t k with
  | some s =>
    match parse s with
    | some x => (t, x, true)
    | none => (t, value, true)
  | none => (setParam print t k defaultValue, defaultValue, false)

/-- Tokens of `boost::tokenizer<boost::char_separator<char>>` with dropped delimiters `delim` (no kept delimiters, empty
tokens dropped); `acc` is the token being read, reversed, param_map.h:144-145, 208-209. -/
def tokensFrom (delim : Str) (acc : Str) : Str → List Str
  | [] => if acc.isEmpty then [] else [acc.reverse]
  | c :: cs =>
    if delim.contains c then (if acc.isEmpty then tokensFrom delim [] cs else acc.reverse :: tokensFrom delim [] cs)
    else tokensFrom delim (c :: acc) cs

/-- Tokens of a string; `char_separator` gets `delim.c_str()`, param_map.h:144-145, 208-209. -/
def tokens (delim : Str) (s : Str) : List Str := tokensFrom (delim.takeWhile fun c => c != '\x00') [] s

/-- Loop of `fillWithTokens`, param_map.h:213-224; the exception ends the loop (line 226-230) and leaves the rest as it is. -/
def fillLoop (parse : Str → Option Value) (valueDefault : Value) : List Str → List Value → List Value
  | _, [] => []
  | [], _ :: vs => valueDefault :: fillLoop parse valueDefault [] vs
  | s :: ss, v :: vs =>
    match parse s with
    | some x => x :: fillLoop parse valueDefault ss vs
    | none => v :: vs

/-- `fillWithTokens`, param_map.h:202-231. -/
def fillWithTokens (parse : Str → Option Value) (valueString : Str) (range : List Value) (valueDefault : Value) (delim : Str) :
    List Value := fillLoop parse valueDefault (tokens delim valueString) range

/-- `getParamContainer`, param_map.h:168-190; `range` is the previous content of `[beg, end)`. -/
def getParamContainer (parse : Str → Option Value) (t : Table) (k : Str) (range : List Value) (defaultString : Str)
    (defaultValue : Value) (delim : Str) : Table × List Value × Bool :=
  let range := range.map fun _ => defaultValue
  match find t k with
  | some s => (t, fillWithTokens parse s range defaultValue delim, true)
  | none => (assign t k defaultString, fillWithTokens parse defaultString range defaultValue delim, false)

/-- Loop of `getParamContainerInserter`, param_map.h:144-154: the values assigned to the inserter, up to the exception. -/
def insertLoop (parse : Str → Option Value) : List Str → List Value
  | [] => []
  | s :: ss =>
    match parse s with
    | some x => x :: insertLoop parse ss
    | none => []

/-- `getParamContainerInserter`, param_map.h:135-166: the table, the values assigned to the inserter, the result. -/
def getParamContainerInserter (parse : Str → Option Value) (t : Table) (k : Str) (delim : Str) : Table × List Value × Bool :=
  match find t k with
  | some s => (t, insertLoop parse (tokens delim s), true)
  | none => (assign t k [], [], false)

/-- `second.rfind("~") == 0`, param_map.cpp:139. -/
def rfindTildeZero (s : Str) : Bool :=
  match s with
  | c :: r => c == '~' && !r.contains '~'
  | [] => false

/-- Loop of `adaptTildeInPaths`, param_map.cpp:131-145; `rest` is the part of the table from the iterator on. `setParam` erases
the element of the iterator (line 143), the increment of the iterator is undefined behaviour. -/
def adaptLoop (home : Option Str) (t : Table) : Table → Outcome Table
  | [] => .ok t
  | (_, second) :: rest =>
    match home with
    | none => .error (.ub .outOfBounds)
    | some _ => if rfindTildeZero second then .error (.ub .iterInvalid) else adaptLoop home t rest

/-- `adaptTildeInPaths`, param_map.cpp:129-146; `home` is the result of `getenv("HOME")`, `none` the null pointer. -/
def adaptTildeInPaths (home : Option Str) (t : Table) : Outcome Table := adaptLoop home t t

end Verif.ParamMap
