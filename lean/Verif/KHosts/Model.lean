/-!
# Model of `Lintel::Net::SSH::KnownHostsFile`

`/repo/src/Lintel/Net/SSH/KnownHostsFile.pm:34-110`. A line is its list of characters (with its newline), the file the list of lines. A host name has no regular expression character but `.` (no name the resolver knows has another); the address is the text of `inet_ntoa`. The resolver's answer, the version test
of lines 24-33 and the message authentication code are parameters: `mac salt val` stands for the base 64 text of the HMAC-SHA1 of `val` under the decoded `salt`. The reading and writing of the file are not modelled beyond their text.
-/

namespace Verif.KHosts

/-- Used in the model of `KnownHostsFile.pm:76` (`hostMatch`). -/
abbrev Line := List Char

/-- One character `p` of an interpolated name as a piece of a regular expression, on the character `c`; `ci` is the flag `/i`. Used in the model of `KnownHostsFile.pm:76` (`matchPrefix`). -/
def patChar (ci : Bool) (p c : Char) : Bool :=
  if p = '.' then c != '\n' else if ci then p.toLower == c.toLower else p == c

/-- The pattern at the start of the text: the rest of the text, if it matches. Used in the model of `KnownHostsFile.pm:76` (`hostMatch`). -/
def matchPrefix (ci : Bool) : List Char → List Char → Option (List Char)
  | [], cs => some cs
  | _ :: _, [] => none
  | p :: ps, c :: cs => if patChar ci p c then matchPrefix ci ps cs else none

/-- `/^$host[, ]/i`, lines 76 and 78. -/
def hostMatch (host : List Char) (line : Line) : Bool :=
  match matchPrefix true host line with
  | some (c :: _) => c == ',' || c == ' '
  | _ => false

/-- `/$ipaddr /` at this place. Used in the model of `KnownHostsFile.pm:79` (`addrMatch`). -/
def addrAt (ip : List Char) (line : Line) : Bool :=
  match matchPrefix false ip line with
  | some (c :: _) => c == ' '
  | _ => false

/-- `\s`. Used in the model of `KnownHostsFile.pm:79` (`addrScan`). -/
def isSpace (c : Char) : Bool := c == ' ' || c == '\n' || c == '\t' || c == '\r' || c == '\x0c' || c == '\x0b'

/-- `/^\S+,$ipaddr /`; `started` says whether a character was taken by `\S+`. Used in the model of `KnownHostsFile.pm:79` (`addrMatch`). -/
def addrScan (ip : List Char) (started : Bool) : Line → Bool
  | [] => false
  | c :: cs => if isSpace c then false else (started && c == ',' && addrAt ip cs) || addrScan ip true cs

/-- `/^(\S+,)?$ipaddr /`, line 79. -/
def addrMatch (ip : List Char) (line : Line) : Bool := addrAt ip line || addrScan ip false line

/-- `[A-Za-z0-9\+/=]`. -/
def isB64 (c : Char) : Bool := c.isAlphanum || c == '+' || c == '/' || c == '='

/-- Lines 87-89: salt and hash of a hashed line. The classes contain neither `|` nor a space, so that the greedy repetition needs no backtracking. -/
def hashedParts : Line → Option (List Char × List Char)
  | '|' :: '1' :: '|' :: cs =>
    let salt := cs.takeWhile isB64
    match cs.dropWhile isB64 with
    | '|' :: ds =>
      let hash := ds.takeWhile isB64
      match ds.dropWhile isB64 with
      | ' ' :: _ => if salt ≠ [] ∧ hash ≠ [] then some (salt, hash) else none
      | _ => none
    | _ => none
  | _ => none

/-- The loop of lines 105-107: `=` until the length is `n`. -/
def padTo (n : Nat) (b64 : List Char) : List Char :=
  if b64.length < n then padTo n (b64 ++ ['=']) else b64
termination_by n - b64.length
decreasing_by simp only [List.length_append, List.length_cons, List.length_nil]; omega

/-- `hmac_equal`, lines 98-110. -/
def hmacEqual (mac : List Char → List Char → List Char) (salt hash val : List Char) : Bool :=
  hash == padTo hash.length (mac salt val)

/-- What the surroundings answer: lines 24-33, `gethostbyname` and the HMAC. -/
structure Env where
  hashedKeys : Bool
  resolve : List Char → Option (List Char)
  mac : List Char → List Char → List Char

/-- The test of lines 87-92 for one line. -/
def hashedFor (e : Env) (host ip : List Char) (line : Line) : Bool :=
  match hashedParts line with
  | some (salt, hash) => hmacEqual e.mac salt hash host || hmacEqual e.mac salt hash ip
  | none => false

/-- The loop of lines 86-96 from index `i`: a line that is spliced out leaves the next one at the same index (`--$i`, then `++$i`). -/
def spliceLoop (p : Line → Bool) (lines : List Line) (i : Nat) : List Line :=
  if h : i < lines.length then
    if p lines[i] then spliceLoop p (lines.eraseIdx i) i else spliceLoop p lines (i + 1)
  else lines
termination_by lines.length - i
decreasing_by
  · have := List.length_eraseIdx_of_lt h; omega
  · omega

/-- `remove_host_key`, lines 68-96; `none` if the host is not known. -/
def removeHostKey (e : Env) (host : List Char) (lines : List Line) (exactMatch : Bool) : Option (List Line) :=
  (e.resolve host).map fun ip =>
    let l1 := lines.filter fun l => !hostMatch host l
    let l2 := if exactMatch then l1 else l1.filter fun l => !addrMatch ip l
    if e.hashedKeys then spliceLoop (hashedFor e host ip) l2 0 else l2

/-- `has_host_key`, lines 35-42. -/
def hasHostKey (e : Env) (host : List Char) (lines : List Line) : Option Bool :=
  (removeHostKey e host lines true).map fun l => decide (lines.length ≠ l.length)

/-- `clear_host_key`, lines 44-57: whether the message was printed and the file written, and the file afterwards. -/
def clearHostKey (e : Env) (host : List Char) (lines : List Line) : Option (Bool × List Line) :=
  (removeHostKey e host lines false).map fun l =>
    if l.length ≠ lines.length then (true, l) else (false, lines)

end Verif.KHosts
