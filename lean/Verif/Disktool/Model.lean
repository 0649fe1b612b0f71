/-!
# Model of `lintel-disktool` (src/lintel-disktool.in)

The commands partition, format, mount, umount and fail. A drive is its name below `/dev`. What `sfdisk` and `vol_id` say about a drive is a `Disk` (`sfdisk`'s own output is read in `Verif/Disktool/Sfdisk.lean`); the mount table is the list of devices and directories, the newest first. What the
commands run by the program do to the world is modelled, whether they succeed is the environment's choice.

Simplified: names have no newline; the mount path has no character that is special in a regular expression (lines 839, 910) and device names and mount options no space; a label can always be read; a drive whose table is correct has its partition (line 1020 checks it); messages, log files and `chmod_as` are left out.
-/

namespace Verif.Disktool

/-- Used in the model of `lintel-disktool.in:119-123` (`driveLe`). -/
abbrev Text := List Char

/-! ## Drives -/

/-- `cmp`. Used in the model of `lintel-disktool.in:119-123` (`driveLe`). -/
def leText : Text → Text → Bool
  | [], _ => true
  | _ :: _, [] => false
  | a :: as, b :: bs => decide (a.toNat < b.toNat) || (decide (a.toNat = b.toNat) && leText as bs)

/-- `bydriveorder`, lines 119-123: not after. -/
def driveLe (a b : Text) : Bool := decide (a.length < b.length) || (decide (a.length = b.length) && leText a b)

/-- Made of the parts of `lintel-disktool.in:119-123`. -/
def insertDrive (a : Text) : List Text → List Text
  | [] => [a]
  | b :: l => if driveLe a b then a :: b :: l else b :: insertDrive a l

/-- `sort bydriveorder`. Used in the model of `lintel-disktool.in:232-307` (`findDrives`). -/
def sortDrives : List Text → List Text
  | [] => []
  | a :: l => insertDrive a (sortDrives l)

/-- The configuration, lines 127-169: whether one of the patterns matches, the two lists as maps (`toMap`), the functions. `none`: the function dies. -/
structure Config where
  pattern : Text → Bool
  serials : Text → Bool
  sysfsIds : Text → Bool
  reserved : Text → Text → Bool := fun _ _ => false
  mountPath : Text
  fs : Text → Text → Text := fun _ _ => ['e', 'x', 't', '3']
  labelToPath : Text → Text → Option Text
  partitionToLabel : Text → List (Text × Text) → Option Text := fun _ _ => none
  clean : Option (Text → Bool) := none

/-- The block devices below `/dev` and what is known about them: minor number, `sginfo -s`, the link in sysfs. Used in the model of `lintel-disktool.in:283-298` (`used`). -/
structure Sys where
  devices : List Text
  minor : Text → Nat
  serial : Text → Option Text
  sysfs : Text → Option Text

/-- `|| ''`, lines 273 and 274: Perl takes the text `0` for false. -/
def orEmpty : Option Text → Text
  | none => []
  | some t => if t = ['0'] then [] else t

/-- Lines 283-298: both are always defined. -/
def used (c : Config) (s : Sys) (d : Text) : Bool :=
  !c.reserved (orEmpty (s.serial d)) (orEmpty (s.sysfs d)) && (c.serials (orEmpty (s.serial d)) || c.sysfsIds (orEmpty (s.sysfs d)))

/-- `findDrives`, lines 232-307, with `is_drive`, lines 1130-1140; `none`: it dies. -/
def findDrives (c : Config) (s : Sys) : Option (List Text) :=
  let cand := sortDrives (s.devices.filter c.pattern)
  if cand.all fun d => decide (s.minor d % 16 = 0) then some (cand.filter (used c s)) else none

/-- `[a-z]`, `\d`. Used in the model of `lintel-disktool.in:917` (`looksSd`). -/
def isLower (c : Char) : Bool := 'a'.toNat ≤ c.toNat && c.toNat ≤ 'z'.toNat
/-- Used in the model of `lintel-disktool.in:918` (`looksCciss`). -/
def isDigit (c : Char) : Bool := '0'.toNat ≤ c.toNat && c.toNat ≤ '9'.toNat

/-- `/^sd[a-z]+$/`. Used in the model of `lintel-disktool.in:394-400` (`partOf`). -/
def isSd : Text → Bool
  | 's' :: 'd' :: r => !r.isEmpty && r.all isLower
  | _ => false

/-- `m!^cciss/c\d+d\d+$!`. Used in the model of `lintel-disktool.in:394-400` (`partOf`). -/
def isCciss : Text → Bool
  | 'c' :: 'c' :: 'i' :: 's' :: 's' :: '/' :: 'c' :: r =>
    match r.dropWhile isDigit with
    | 'd' :: e => !(r.takeWhile isDigit).isEmpty && !e.isEmpty && e.all isDigit
    | _ => false
  | _ => false

/-- Used in the model of `lintel-disktool.in:394-400` (`partOf`). -/
def dev : Text := ['/', 'd', 'e', 'v', '/']

/-- `driveToPartition`, lines 394-400; `none`: it dies. -/
def partOf (d : Text) : Option Text :=
  if isCciss d then some (dev ++ d ++ ['p', '1']) else if isSd d then some (dev ++ d ++ ['1']) else none

/-! ## The world -/

/-- Used in the model of `lintel-disktool.in:351-971` (`World`). -/
structure Disk where
  tableOk : Bool
  label : Text
deriving DecidableEq, Repr

/-- Not a function of the code; stands for the uses of `lintel-disktool.in:351-971`. -/
structure World where
  disk : Text → Disk
  mounts : List (Text × Text)

/-- What the program does to the world. Not a function of the code; stands for the uses of `lintel-disktool.in:351-971`. -/
inductive Act where
  /-- `dd` over the beginning of a drive (line 372) -/
  | wipe (drive : Text)
  /-- `sfdisk` (lines 374-378) -/
  | table (drive : Text)
  /-- `dd` over the beginning of a partition (line 405) -/
  | zero (part : Text)
  | mkfs (part label : Text)
  | mount (part dir : Text)
  | umount (dir : Text)
  | rmdir (dir : Text)
  /-- `dd` over the first 100MB of a device (line 960) -/
  | overwrite (device : Text)
  /-- `scsiadd -r` (line 966) -/
  | remove (args : Text)
deriving DecidableEq, Repr

/-- What a command did: its actions in order, the world, and whether it ends without an error. Not a function of the code; stands for the uses of `lintel-disktool.in:351-734`. -/
structure Out where
  acts : List Act
  world : World
  ok : Bool

/-- Used in the model of `lintel-disktool.in:362-379` (`partitionLoop`). -/
def setDisk (w : World) (d : Text) (x : Disk) : World := { w with disk := fun e => if e = d then x else w.disk e }

/-- The answers of the environment: whether a command works, and what a drive is after `sfdisk`. Used in the model of `lintel-disktool.in:362-379` (`partitionLoop`). -/
structure Env where
  works : Act → Bool
  after : Text → Disk

/-- `/dev/\S+1`. Used in the model of `lintel-disktool.in:839` (`entry`). -/
def isPart1 (d : Text) : Bool := dev.isPrefixOf d && decide (7 ≤ d.length) && decide (d.getLast? = some '1')

/-- `$config{mount_path}/([^/ ]+)`. Used in the model of `lintel-disktool.in:839` (`entry`). -/
def below (mp dir : Text) : Option Text :=
  if (mp ++ ['/']).isPrefixOf dir then
    let x := dir.drop (mp.length + 1)
    if !x.isEmpty && x.all (fun c => c != '/' && c != ' ') then some x else none
  else none

/-- One line of `mount`, line 839: the directory and the device. -/
def entry (mp : Text) (e : Text × Text) : Option (Text × Text) :=
  if isPart1 e.1 then (below mp e.2).map fun x => (x, e.1) else none

/-- `getMounted`, lines 829-859: directory names and devices; `none`: it dies. (The `reverse` of it, which `mountDrives` and others use, is the same list read the other way.) -/
def getMounted (mp : Text) (w : World) : Option (List (Text × Text)) :=
  let m := w.mounts.reverse.filterMap (entry mp)
  if (m.map (·.1)).Nodup ∧ (m.map (·.2)).Nodup then some m else none

/-- `$mounted{$partition}` with `getMounted(1)`. Used in the model of `lintel-disktool.in:533-568` (`formatLoop`). -/
def mountedOn (m : List (Text × Text)) (p : Text) : Option Text := (m.find? fun x => decide (x.2 = p)).map (·.1)

/-- `$revmounted{$label}`. Used in the model of `lintel-disktool.in:670-688` (`mountOne`). -/
def mountedAt (m : List (Text × Text)) (l : Text) : Option Text := (m.find? fun x => decide (x.1 = l)).map (·.2)

/-- A value in a condition: a directory called `0` is false (lines 535 and 664). -/
def isTrue (o : Option Text) : Bool := decide (orEmpty o ≠ [])

/-! ## partition -/

/-- The loop of lines 362-379; `ok` is what was known before it. -/
def partitionLoop (env : Env) (ok : Text → Bool) : List Text → World → Out
  | [], w => ⟨[], w, true⟩
  | d :: ds, w =>
    if ok d then partitionLoop env ok ds w
    else
      let w1 := setDisk w d ⟨false, []⟩
      if env.works (.wipe d) then
        if env.works (.table d) then
          let r := partitionLoop env ok ds (setDisk w d (env.after d))
          ⟨.wipe d :: .table d :: r.acts, r.world, r.ok⟩
        else ⟨[.wipe d, .table d], w1, false⟩
      else ⟨[.wipe d], w1, false⟩

/-- `partitionDrives`, lines 351-392; `none`: it dies in `findDrives`. -/
def partition (c : Config) (s : Sys) (env : Env) (w : World) : Option Out :=
  (findDrives c s).map fun ds =>
    let r := partitionLoop env (fun d => (w.disk d).tableOk) ds w
    if r.ok then if r.acts = [] then r else { r with ok := ds.all fun d => (r.world.disk d).tableOk } else r

/-! ## format -/

/-- `\w`. Used in the model of `lintel-disktool.in:520` (`validLabel`). -/
def isWord (c : Char) : Bool := isLower c || ('A'.toNat ≤ c.toNat && c.toNat ≤ 'Z'.toNat) || isDigit c || c == '_'

/-- `/^\w{1,12}$/`, line 520: the `$` also matches before a newline at the end. -/
def validLabel (t : Text) : Bool :=
  let b := if t.getLast? = some '\n' then t.dropLast else t
  !b.isEmpty && decide (b.length ≤ 12) && b.all isWord

/-- `$label_to_partition{$label}`: the last one that was set. Used in the model of `lintel-disktool.in:523` (`free`). -/
def lookup (m : List (Text × Text)) (l : Text) : Option Text := (m.find? fun x => decide (x.1 = l)).map (·.2)

/-- The first loop, lines 495-509; `none`: it dies. The newest entry is first. -/
def checkDrives (c : Config) (w : World) : List Text → List (Text × Text) → Option (List (Text × Text))
  | [], m => some m
  | d :: ds, m =>
    if (w.disk d).tableOk then
      match partOf d with
      | none => none
      | some p =>
        if (w.disk d).label = [] then checkDrives c w ds m
        else
          match c.labelToPath (w.disk d).label d with
          | none => none
          | some _ => checkDrives c w ds (((w.disk d).label, p) :: m)
    else none

/-- Lines 513-516: the label a drive is to have. -/
def newLabel (c : Config) (w : World) (d p : Text) (m : List (Text × Text)) : Option Text :=
  if (w.disk d).label = [] then c.partitionToLabel p m else some (w.disk d).label

/-- Line 523: no other partition has the label. -/
def free (m : List (Text × Text)) (l p : Text) : Bool :=
  match lookup m l with
  | some q => decide (q = p)
  | none => true

/-- The second loop, lines 511-527: drives, partitions and labels; `none`: it dies. -/
def assign (c : Config) (w : World) : List Text → List (Text × Text) → Option (List (Text × Text × Text))
  | [], _ => some []
  | d :: ds, m =>
    match partOf d with
    | none => none
    | some p =>
      match newLabel c w d p m with
      | none => none
      | some l =>
        if validLabel l && free m l p then
          (assign c w ds ((l, p) :: m)).map ((d, p, l) :: ·)
        else none

/-- Used in the model of `lintel-disktool.in:412-440` (`formatOne`). -/
def fsNames : List Text := [['e', 'x', 't', '2'], ['e', 'x', 't', '3'], ['x', 'f', 's']]
/-- Used in the model of `lintel-disktool.in:412-440` (`formatOne`). -/
def fsReserved : Text := ['r', 'e', 's', 'e', 'r', 'v', 'e', 'd']

/-- A newline in the label ends the command before the partition is named (lines 423-427): `mkfs` has nothing to format. -/
def mkfsWorks (env : Env) (p l : Text) : Bool := env.works (.mkfs p l) && !l.contains '\n'

/-- `formatOneDrive`, lines 412-440, in the child. -/
def formatOne (c : Config) (env : Env) (d p l : Text) (w : World) : Out :=
  if c.fs d l = fsReserved then ⟨[], w, true⟩
  else if c.fs d l ∈ fsNames then
    if env.works (.zero p) then
      if mkfsWorks env p l then ⟨[.zero p, .mkfs p l], setDisk w d { w.disk d with label := l }, true⟩
      else ⟨[.zero p, .mkfs p l], setDisk w d { w.disk d with label := [] }, false⟩
    else ⟨[.zero p], setDisk w d { w.disk d with label := [] }, false⟩
  else ⟨[], w, false⟩

/-- The third loop and the wait, lines 533-568: the children write to different drives, so that their order is of no account; all are waited for. -/
def formatLoop (c : Config) (env : Env) (m : List (Text × Text)) : List (Text × Text × Text) → World → Out
  | [], w => ⟨[], w, true⟩
  | (d, p, l) :: xs, w =>
    if isTrue (mountedOn m p) then formatLoop c env m xs w
    else
      let a := formatOne c env d p l w
      let r := formatLoop c env m xs a.world
      ⟨a.acts ++ r.acts, r.world, a.ok && r.ok⟩

/-- `formatDrives`, lines 480-569; `none`: it dies before the first fork. -/
def format (c : Config) (s : Sys) (env : Env) (w : World) : Option Out :=
  match findDrives c s, getMounted c.mountPath w with
  | some ds, some m =>
    match checkDrives c w ds [] with
    | none => none
    | some l2p =>
      match assign c w ds l2p with
      | none => none
      | some xs => some (formatLoop c env m xs w)
  | _, _ => none

/-- `nextUnique`, lines 468-478, with `expr` as a function of `$i`; `none`: not found among the first `n`. -/
def nextUnique (expr : Nat → Text) (m : List (Text × Text)) : Nat → Nat → Option Text
  | 0, _ => none
  | n + 1, i => if (lookup m (expr i)).isNone then some (expr i) else nextUnique expr m n (i + 1)

/-! ## mount and umount -/

/-- `umount dir` takes away what was mounted last on it. Used in the model of `lintel-disktool.in:670-688` (`mountOne`). -/
def umountDir (env : Env) (dir : Text) (w : World) : Bool × World :=
  if env.works (.umount dir) && w.mounts.any (fun e => decide (e.2 = dir)) then (true, { w with mounts := w.mounts.eraseP fun e => decide (e.2 = dir) })
  else (false, w)

/-- `mount part dir`; refused if it is mounted there already. Used in the model of `lintel-disktool.in:670-688` (`mountOne`). -/
def mountPart (env : Env) (p dir : Text) (w : World) : Bool × World :=
  if env.works (.mount p dir) && !w.mounts.contains (p, dir) then (true, { w with mounts := (p, dir) :: w.mounts })
  else (false, w)

/-- Lines 670-688 for one drive that is not mounted: another partition on its directory makes way. Whether `mkdir` works is part of the answer for `mount`. -/
def mountOne (c : Config) (env : Env) (m : List (Text × Text)) (d p l : Text) (w : World) : Out :=
  match c.labelToPath l d with
  | none => ⟨[], w, false⟩
  | some path =>
    if (mountedAt m l).isSome then
      let u := umountDir env path w
      if u.1 then
        let r := mountPart env p path u.2
        ⟨[.umount path, .mount p path], r.2, r.1⟩
      else ⟨[.umount path], w, false⟩
    else
      let r := mountPart env p path w
      ⟨[.mount p path], r.2, r.1⟩

/-- The loop of lines 650-690. -/
def mountLoop (c : Config) (env : Env) (m : List (Text × Text)) : List Text → World → Out
  | [], w => ⟨[], w, true⟩
  | d :: ds, w =>
    if (w.disk d).tableOk then
      match partOf d with
      | none => ⟨[], w, false⟩
      | some p =>
        if (w.disk d).label = [] then mountLoop c env m ds w
        else
          if isTrue (mountedOn m p) then
            if mountedOn m p = some (w.disk d).label then mountLoop c env m ds w else ⟨[], w, false⟩
          else
            let a := mountOne c env m d p (w.disk d).label w
            if a.ok then
              let r := mountLoop c env m ds a.world
              ⟨a.acts ++ r.acts, r.world, r.ok⟩
            else a
    else mountLoop c env m ds w

/-- Lines 633-645: the directories that are cleaned up; the second part: all could be removed. `dirs` is what is in the mount path. -/
def cleanDirs (c : Config) (env : Env) (m : List (Text × Text)) : List Text → List Act × Bool
  | [] => ([], true)
  | x :: xs =>
    if (match c.clean with | some p => p x | none => false) && (mountedAt m x).isNone then
      if env.works (.rmdir (c.mountPath ++ '/' :: x)) then
        (.rmdir (c.mountPath ++ '/' :: x) :: (cleanDirs c env m xs).1, (cleanDirs c env m xs).2)
      else ([.rmdir (c.mountPath ++ '/' :: x)], false)
    else cleanDirs c env m xs

/-- `mountDrives`, lines 620-692; `none`: it dies before it does anything. -/
def mount (c : Config) (s : Sys) (env : Env) (dirs : List Text) (w : World) : Option Out :=
  match findDrives c s, getMounted c.mountPath w with
  | some ds, some m =>
    let k := cleanDirs c env m dirs
    if k.2 then
      let r := mountLoop c env m ds w
      some ⟨k.1 ++ r.acts, r.world, r.ok⟩
    else some ⟨k.1, w, false⟩
  | _, _ => none

/-- The loop of `umountDrives`, lines 710-731, over the names that are to be unmounted. -/
def umountLoop (c : Config) (env : Env) : List Text → World → Out
  | [], w => ⟨[], w, true⟩
  | x :: xs, w =>
    let path := c.mountPath ++ '/' :: x
    let u := umountDir env path w
    if u.1 then
      if (match c.clean with | some p => p x | none => false) then
        if env.works (.rmdir path) then
          let r := umountLoop c env xs u.2
          ⟨.umount path :: .rmdir path :: r.acts, r.world, r.ok⟩
        else ⟨[.umount path, .rmdir path], u.2, false⟩
      else
        let r := umountLoop c env xs u.2
        ⟨.umount path :: r.acts, r.world, r.ok⟩
    else ⟨[.umount path], w, false⟩

/-- `umountDrives`, lines 704-734; `wanted`: the tests of the arguments. -/
def umount (c : Config) (env : Env) (wanted : List (Text → Bool)) (w : World) : Option Out :=
  (getMounted c.mountPath w).map fun m =>
    umountLoop c env ((sortDrives (m.map (·.1))).filter fun x => wanted.isEmpty || wanted.any fun f => f x) w

/-! ## fail -/

/-- Line 910. -/
def stripPath (mp t : Text) : Text := if (mp ++ ['/']).isPrefixOf t then t.drop (mp.length + 1) else t

/-- `m!^/dev/sd[a-z]+1$!` with what is between. Used in the model of `lintel-disktool.in:923-953` (`victim`). -/
def sdDrive (p : Text) : Option Text :=
  if dev.isPrefixOf p && decide (p.getLast? = some '1') && isSd (p.drop 5).dropLast then some (p.drop 5).dropLast else none

/-- `s!^/dev/(cciss/c\d+d\d+)p1$!$1!`: unchanged if it does not match. Used in the model of `lintel-disktool.in:923-953` (`victim`). -/
def ccissDrive (p : Text) : Text :=
  if dev.isPrefixOf p && ['p', '1'].isSuffixOf p && isCciss ((p.drop 5).take (p.length - 7)) then (p.drop 5).take (p.length - 7) else p

/-- `m!^/dev/sd[a-z]+1!`, without `$` (line 917). -/
def looksSd (p : Text) : Bool :=
  (dev ++ ['s', 'd']).isPrefixOf p && !((p.drop 7).takeWhile isLower).isEmpty && decide (((p.drop 7).dropWhile isLower).head? = some '1')

/-- `m!^/dev/cciss/c\d+d\d+p1!`, without `$` (line 918). -/
def looksCciss (p : Text) : Bool :=
  if (dev ++ ['c', 'c', 'i', 's', 's', '/', 'c']).isPrefixOf p then
    let r := p.drop 12
    match r.dropWhile isDigit with
    | 'd' :: e => !(r.takeWhile isDigit).isEmpty && !(e.takeWhile isDigit).isEmpty && ['p', '1'].isPrefixOf (e.dropWhile isDigit)
    | _ => false
  else false

/-- What is to be done with one of the paths, lines 924-952: the device, and for a SCSI disk the four numbers. `link d`: what the link in sysfs says, `none` if it cannot be read. -/
structure Victim where
  device : Text
  scsi : Option Text
deriving DecidableEq, Repr

/-- Used in the model of `lintel-disktool.in:923-953` (`victims`). -/
def victim (link : Text → Option Text) (mangle : Bool) (p : Text) : Option Victim :=
  match sdDrive p with
  | some d => (link d).map fun a => ⟨dev ++ d, some a⟩
  | none => if mangle then some ⟨dev ++ ccissDrive p, none⟩ else none

/-- The second loop of `failDrives`, lines 923-953; `seen`: the SCSI disks (a path given twice is refused for these). -/
def victims (link : Text → Option Text) (m : List (Text × Text)) (mangle : Bool) : List Text → List Text → Option (List Victim)
  | [], _ => some []
  | x :: xs, seen =>
    match (mountedAt m x).bind (victim link mangle) with
    | none => none
    | some v =>
      if v.scsi.isSome && seen.contains x then none
      else (victims link m mangle xs (if v.scsi.isSome then x :: seen else seen)).map (v :: ·)

/-- The third loop, lines 955-970. -/
def failLoop (env : Env) (destroy mangle : Bool) : List Victim → List Act × Bool
  | [] => ([], true)
  | v :: vs =>
    let a : List Act := if destroy || mangle then [.overwrite v.device] else []
    let b : List Act := if mangle then [] else [.remove (v.scsi.getD [])]
    if a.all env.works then
      if b.all env.works then
        (a ++ b ++ (failLoop env destroy mangle vs).1, (failLoop env destroy mangle vs).2)
      else (a ++ b, false)
    else (a, false)

/-- `failDrives`, lines 895-971, after the two words of lines 898-907; `none`: it dies before it does anything. -/
def fail (c : Config) (env : Env) (link : Text → Option Text) (destroy mangle : Bool) (paths : List Text) (w : World) : Option (List Act × Bool) :=
  if paths = [] then none
  else
    match getMounted c.mountPath w with
    | none => none
    | some m =>
      let xs := paths.map (stripPath c.mountPath)
      if xs.all fun x => match mountedAt m x with | some p => looksSd p || looksCciss p | none => false then
        (victims link m mangle xs []).map (failLoop env destroy mangle)
      else none

end Verif.Disktool
