import Verif.Basic.AMap
import Verif.Basic.Bytes

/-!
# Log files and their rotation

Models `/repo/log/rotate.go`: the writer that appends log lines to a file, moves the file aside when it
is full or when an hour has passed, and the background goroutine that removes and compresses the files
moved aside. The directory is a map from file names to contents; every system call is one step, whose
outcome is an argument of the step, so the writer, the background goroutine and crashes of the process
interleave in every possible way.

Simplifications: all names are in the one directory of the log file; modes and owners of files are left
out; a second process writing the same file is not modelled; the time format (`time.Format`,
`time.Parse`, the time zone and the hour subtracted when rotating per hour) and gzip are parameters.
-/

namespace Motan.LogFile

open Motan

/-- `compressSuffix` (`/repo/log/rotate.go` 40-45). -/
def gzSuffix : Bytes := b!".gz"

/-- A `RotateWriter` and the library functions it uses (`/repo/log/rotate.go` 74-123). `stem` and `ext`
are the two parts of the base name that `filepath.Ext` separates; `stamp t` is the text of the time `t` in
the name of a file moved aside (259-270); `parse` is `time.Parse` with the same format (455-458). -/
structure Cfg where
  stem : Bytes
  ext : Bytes
  maxSize : Nat
  maxBackups : Nat
  maxAge : Nat
  compress : Bool
  stamp : Nat → Bytes
  parse : Bytes → Option Nat
  gz : Bytes → Bytes

/-- `megabyte` (`/repo/log/rotate.go` 135). -/
def megabyte : Nat := 1024 * 1024

/-- `defaultMaxSize` (`/repo/log/rotate.go` 40-45). -/
def defaultMaxSize : Nat := 1024 * 1024 * 1024

/-- `RotateWriter.max` (`/repo/log/rotate.go` 462-467). -/
def max (c : Cfg) : Nat :=
  if c.maxSize = 0 then defaultMaxSize * megabyte else c.maxSize * megabyte

/-- `RotateWriter.filename`, without its directory (`/repo/log/rotate.go` 305-311). -/
def filename (c : Cfg) : Bytes := c.stem ++ c.ext

/-- `RotateWriter.prefixAndExt`, the prefix (`/repo/log/rotate.go` 476-481). -/
def namePrefix (c : Cfg) : Bytes := c.stem ++ b!"-"

/-- `RotateWriter.backupName` (`/repo/log/rotate.go` 254-272). -/
def backupName (c : Cfg) (t : Nat) : Bytes := namePrefix c ++ c.stamp t ++ c.ext

/-- `fn+compressSuffix` (`/repo/log/rotate.go` 380). -/
def gzName (f : Bytes) : Bytes := f ++ gzSuffix

/-- Result of `timeFromName`: a time, an error, or a panic for a slice out of range. -/
inductive Parsed where
  | time (t : Nat)
  | error
  | panic
  deriving DecidableEq, Repr

/-- `RotateWriter.timeFromName` (`/repo/log/rotate.go` 447-459). The slice at 454 panics when the prefix
and the extension overlap in the name. -/
def timeFromName (c : Cfg) (name ext : Bytes) : Parsed :=
  if ¬ (namePrefix c).isPrefixOf name then .error
  else if ¬ ext.isSuffixOf name then .error
  else if name.length < (namePrefix c).length + ext.length then .panic
  else match c.parse ((name.take (name.length - ext.length)).drop (namePrefix c).length) with
    | some t => .time t
    | none => .error

/-- The time `oldLogFiles` finds in a name, with or without the suffix of compressed files
(`/repo/log/rotate.go` 427-434). -/
def timeOf (c : Cfg) (name : Bytes) : Parsed :=
  match timeFromName c name c.ext with
  | .error => timeFromName c name (c.ext ++ gzSuffix)
  | r => r

/-- The files of the directory whose name has a time (`/repo/log/rotate.go` 414-437): `none` is a panic. -/
def oldFiles (c : Cfg) : List Bytes → Option (List (Bytes × Nat))
  | [] => some []
  | f :: fs =>
    match timeOf c f with
    | .panic => none
    | .time t => (oldFiles c fs).map ((f, t) :: ·)
    | .error => oldFiles c fs

/-- A name without the suffix of compressed files (`/repo/log/rotate.go` 335-338). -/
def base (f : Bytes) : Bytes :=
  if gzSuffix.isSuffixOf f then f.take (f.length - gzSuffix.length) else f

/-- The loop at `/repo/log/rotate.go` 332-346: `(remove, remaining)`; `preserved` are the distinct names
seen so far. -/
def byCount (n : Nat) : List Bytes → List (Bytes × Nat) → List (Bytes × Nat) × List (Bytes × Nat)
  | _, [] => ([], [])
  | preserved, f :: fs =>
    let preserved := if base f.1 ∈ preserved then preserved else base f.1 :: preserved
    let r := byCount n preserved fs
    if preserved.length > n then (f :: r.1, r.2) else (r.1, f :: r.2)

/-- Seconds in a day. -/
def day : Nat := 24 * 3600

/-- `f.timestamp.Before(cutoff)` (`/repo/log/rotate.go` 350-355), in seconds. -/
def tooOld (c : Cfg) (now : Nat) (f : Bytes × Nat) : Bool := f.2 + c.maxAge * day < now

/-- The choice by number (`/repo/log/rotate.go` 329-348): those to remove and the others. -/
def counted (c : Cfg) (files : List (Bytes × Nat)) : List (Bytes × Nat) × List (Bytes × Nat) :=
  if 0 < c.maxBackups ∧ c.maxBackups < files.length then byCount c.maxBackups [] files
  else ([], files)

/-- The choice of `millRunOnce` among the files, newest first: those to remove and those to keep
(`/repo/log/rotate.go` 329-362). -/
def choose (c : Cfg) (now : Nat) (files : List (Bytes × Nat)) :
    List (Bytes × Nat) × List (Bytes × Nat) :=
  if 0 < c.maxAge then
    ((counted c files).1 ++ (counted c files).2.filter (tooOld c now),
      (counted c files).2.filter fun f => ¬ tooOld c now f)
  else counted c files

/-- The files `millRunOnce` compresses, among those kept (`/repo/log/rotate.go` 364-370). -/
def toCompress (c : Cfg) (kept : List (Bytes × Nat)) : List (Bytes × Nat) :=
  if c.compress then kept.filter fun f => ¬ gzSuffix.isSuffixOf f.1 else []

/-- What remains to be done in a call of `openNew`'s caller. -/
inductive Cont where
  /-- `Rotate` returns (193-197) -/
  | done
  /-- `Write` compares the size next (159) -/
  | check (p : Bytes)
  /-- `Write` writes next (165) -/
  | write (p : Bytes)
  deriving DecidableEq, Repr

/-- Where the goroutine holding the writer's mutex is. In the phases of `openNew` the flag says whether
the caller is `rotate`, which wakes the background goroutine afterwards (202-211). -/
inductive Pc where
  | idle
  /-- `openExistingOrNew` (277) -/
  | openEx (p : Bytes)
  /-- before `os.OpenFile` at 293; `size` is `info.Size()` -/
  | openAppend (p : Bytes) (size : Nat)
  /-- `openNew` (215) -/
  | openNew (mill : Bool) (k : Cont)
  /-- before `os.Rename` (229) -/
  | rename (mill : Bool) (k : Cont)
  /-- before `chown` (234) -/
  | chown (mill : Bool) (k : Cont)
  /-- before `os.OpenFile` (242) -/
  | create (mill : Bool) (k : Cont)
  /-- `Write` at 159 -/
  | check (p : Bytes)
  /-- `Write` at 165 -/
  | write (p : Bytes)
  deriving DecidableEq, Repr

/-- A pending action of the background goroutine. -/
inductive MPc where
  /-- `os.Remove` (373) -/
  | remove (f : Bytes)
  /-- `os.Open(src)` (514) -/
  | gzOpen (f : Bytes)
  /-- `chown(dst)` and `os.OpenFile(dst)` (525-534); `data` is what the open source holds -/
  | gzCreate (f : Bytes) (data : Bytes)
  /-- `io.Copy` and the closing of both files (546-558) -/
  | gzCopy (f : Bytes) (data : Bytes)
  /-- `os.Remove(src)` (559) -/
  | gzRemove (f : Bytes)
  deriving DecidableEq, Repr

/-- The directory, the writer (`file` open or nil, `size`), the channel `millCh` of capacity one, and the
background goroutine with its pending actions. -/
structure St where
  fs : AMap Bytes Bytes
  opened : Bool := false
  size : Nat := 0
  pc : Pc := .idle
  signal : Bool := false
  mill : List MPc := []
  deriving DecidableEq, Repr

/-- What happens, as seen from outside. -/
inductive Event where
  /-- `Write(p)` returned after writing the first `n` bytes -/
  | wrote (p : Bytes) (n : Nat)
  /-- the process died after the first `n` bytes of `p` were written -/
  | torn (p : Bytes) (n : Nat)
  /-- the log file was moved to `name`; `clobbered`: a file of that name existed -/
  | moved (name : Bytes) (clobbered : Bool)
  /-- the file was removed by the clean-up -/
  | removed (name : Bytes)
  /-- the background goroutine panicked, and with it the process -/
  | panicked
  deriving DecidableEq, Repr

/-- One step. -/
inductive Op where
  /-- `Write(p)` is called and gets the mutex (142-157) -/
  | callWrite (p : Bytes)
  /-- `Rotate()` is called, by the user or by `rotatePerHour` (193-205, 503); `ok`: closing succeeds -/
  | callRotate (ok : Bool)
  /-- `Close()` (172-186) -/
  | callClose
  /-- `osStat` in `openExistingOrNew` (281-291); `ok = false`: it fails although the file may exist -/
  | stat (ok : Bool)
  /-- `os.OpenFile` with `O_APPEND` (293) -/
  | append (ok : Bool)
  /-- `os.MkdirAll` (216) -/
  | mkdirFails
  /-- `osStat` in `openNew` (223); `ok = false`: it fails although the file may exist -/
  | statNew (ok : Bool)
  /-- `os.Rename` at time `t` (228-231) -/
  | rename (t : Nat) (ok : Bool)
  /-- `chown` (234); `created`: it failed after creating the file -/
  | chown (ok : Bool) (created : Bool)
  /-- `os.OpenFile` with `O_TRUNC` (242) -/
  | create (ok : Bool)
  /-- the comparison at 159 and, if the file is full, closing it (203); `ok`: closing succeeds -/
  | check (ok : Bool)
  /-- `l.file.Write(p)` writes `n` bytes (165) -/
  | write (n : Nat)
  /-- the background goroutine wakes up at time `now` and reads the directory (317-370); `files` is what
  `oldLogFiles` returns: `sort.Sort` leaves the order of equal times open -/
  | wake (now : Nat) (files : List (Bytes × Nat))
  /-- the next action of the background goroutine; `junk`: what it leaves in the file it is writing -/
  | act (ok : Bool) (junk : Option Bytes)
  /-- the process dies, after `n` bytes of a write under way, and starts again -/
  | crash (n : Nat)
  deriving DecidableEq, Repr

/-- `Write` returns having written nothing, `Rotate` returns: an error occurred. -/
def failed : Cont → List Event
  | .done => []
  | .check p => [.wrote p 0]
  | .write p => [.wrote p 0]

/-- Where the writer goes after `openNew` returned nil. -/
def goOn : Cont → Pc
  | .done => .idle
  | .check p => .check p
  | .write p => .write p

/-- The process starts again with the directory as it is. -/
def restart (fs : AMap Bytes Bytes) : St := { fs := fs }

/-- `sort.Sort(byFormatTime)`: newest first (`/repo/log/rotate.go` 439, 573-590). -/
def newestFirst : List (Bytes × Nat) → Bool
  | [] => true
  | f :: fs => fs.all (fun g => g.2 ≤ f.2) && newestFirst fs

/-- The actions for the files chosen (`/repo/log/rotate.go` 372-384). -/
def actions (c : Cfg) (now : Nat) (files : List (Bytes × Nat)) : List MPc :=
  (choose c now files).1.map (fun f => MPc.remove f.1)
    ++ (toCompress c (choose c now files).2).map (fun f => MPc.gzOpen f.1)

/-- `Write` up to the opening of the file (`/repo/log/rotate.go` 142-157). -/
def callWrite (c : Cfg) (s : St) (p : Bytes) : St × List Event :=
  if max c < p.length then (s, [.wrote p 0])
  else if s.opened then ({ s with pc := .check p }, [])
  else ({ s with pc := .openEx p }, [])

/-- `openExistingOrNew` up to the opening of the file (`/repo/log/rotate.go` 277-292). The file is not
open there, so `rotate` goes straight to `openNew`. -/
def statExisting (c : Cfg) (s : St) (p : Bytes) (ok : Bool) : St × List Event :=
  let s := { s with signal := true }
  match ok, s.fs.load (filename c) with
  | false, _ => ({ s with pc := .idle }, [.wrote p 0])
  | true, none => ({ s with pc := .openNew false (.check p) }, [])
  | true, some d =>
    if max c ≤ d.length + p.length then ({ s with pc := .openNew true (.check p) }, [])
    else ({ s with pc := .openAppend p d.length }, [])

/-- The comparison in `Write` and the closing of the file in `rotate` (`/repo/log/rotate.go` 159, 203). -/
def checkSize (c : Cfg) (s : St) (p : Bytes) (ok : Bool) : St × List Event :=
  if max c < s.size + p.length then
    if ok then ({ s with opened := false, pc := .openNew true (.write p) }, [])
    else ({ s with opened := false, pc := .idle }, [.wrote p 0])
  else ({ s with pc := .write p }, [])

/-- `os.Rename` (`/repo/log/rotate.go` 228-231): an existing file of the new name is replaced. -/
def moveAside (c : Cfg) (s : St) (mill : Bool) (k : Cont) (t : Nat) (ok : Bool) : St × List Event :=
  match ok, s.fs.load (filename c) with
  | true, some d =>
    ({ s with fs := (s.fs.erase (filename c)).store (backupName c t) d, pc := .chown mill k },
      [.moved (backupName c t) (s.fs.load (backupName c t)).isSome])
  | _, _ => ({ s with pc := .idle }, failed k)

/-- `chown` (`/repo/log/rotate_notwin.go` 12-23): creates the file. -/
def chownNew (c : Cfg) (s : St) (mill : Bool) (k : Cont) (ok created : Bool) : St × List Event :=
  let fs := if ok || created then s.fs.store (filename c) [] else s.fs
  if ok then ({ s with fs := fs, pc := .create mill k }, [])
  else ({ s with fs := fs, pc := .idle }, failed k)

/-- `os.OpenFile` with `O_TRUNC` and the end of `openNew` (`/repo/log/rotate.go` 242-248, 209). -/
def createNew (c : Cfg) (s : St) (mill : Bool) (k : Cont) (ok : Bool) : St × List Event :=
  if ok then
    ({ s with fs := s.fs.store (filename c) [], opened := true, size := 0,
              signal := s.signal || mill, pc := goOn k }, [])
  else ({ s with pc := .idle }, failed k)

/-- The file after `n` bytes of `p` are appended (`/repo/log/rotate.go` 165). -/
def appended (c : Cfg) (fs : AMap Bytes Bytes) (p : Bytes) (n : Nat) : AMap Bytes Bytes :=
  fs.store (filename c) ((fs.load (filename c)).getD [] ++ p.take n)

/-- One action of the background goroutine: `os.Remove` (`/repo/log/rotate.go` 372-377) and
`compressLogFile` (513-564). The source stays open while it is copied, and a file moved aside is not
written any more, so what is copied is what it held when it was opened. If anything fails after the
compressed file was created, that file is removed (539-544). -/
def act (c : Cfg) (s : St) (m : MPc) (rest : List MPc) (ok : Bool) (junk : Option Bytes) :
    St × List Event :=
  match m with
  | .remove f =>
    if ok then ({ s with fs := s.fs.erase f, mill := rest }, [.removed f])
    else ({ s with mill := rest }, [])
  | .gzOpen f =>
    match ok, s.fs.load f with
    | true, some d => ({ s with mill := .gzCreate f d :: rest }, [])
    | _, _ => ({ s with mill := rest }, [])
  | .gzCreate f d =>
    let fs := match junk with
      | some j => s.fs.store (gzName f) j
      | none => s.fs
    if ok then ({ s with fs := fs, mill := .gzCopy f d :: rest }, [])
    else ({ s with fs := fs, mill := rest }, [])
  | .gzCopy f d =>
    if ok then ({ s with fs := s.fs.store (gzName f) (c.gz d), mill := .gzRemove f :: rest }, [])
    else ({ s with fs := s.fs.erase (gzName f), mill := rest }, [])
  | .gzRemove f =>
    if ok then ({ s with fs := s.fs.erase f, mill := rest }, [])
    else ({ s with fs := s.fs.erase (gzName f), mill := rest }, [])

/-- One step of the whole; `none`: it is not possible now. -/
def step (c : Cfg) (s : St) : Op → Option (St × List Event)
  | .callWrite p => if s.pc = .idle then some (callWrite c s p) else none
  | .callRotate ok =>
    if s.pc = .idle then
      if ok || !s.opened then some ({ s with opened := false, pc := .openNew true .done }, [])
      else some ({ s with opened := false }, [])
    else none
  | .callClose => if s.pc = .idle then some ({ s with opened := false }, []) else none
  | .stat ok =>
    match s.pc with
    | .openEx p => some (statExisting c s p ok)
    | _ => none
  | .append ok =>
    match s.pc with
    | .openAppend p n =>
      if ok then some ({ s with opened := true, size := n, pc := .check p }, [])
      else some ({ s with pc := .openNew false (.check p) }, [])
    | _ => none
  | .mkdirFails =>
    match s.pc with
    | .openNew _ k => some ({ s with pc := .idle }, failed k)
    | _ => none
  | .statNew ok =>
    match s.pc with
    | .openNew m k =>
      if ok && (s.fs.load (filename c)).isSome then some ({ s with pc := .rename m k }, [])
      else some ({ s with pc := .create m k }, [])
    | _ => none
  | .rename t ok =>
    match s.pc with
    | .rename m k => some (moveAside c s m k t ok)
    | _ => none
  | .chown ok created =>
    match s.pc with
    | .chown m k => some (chownNew c s m k ok created)
    | _ => none
  | .create ok =>
    match s.pc with
    | .create m k => some (createNew c s m k ok)
    | _ => none
  | .check ok =>
    match s.pc with
    | .check p => some (checkSize c s p ok)
    | _ => none
  | .write n =>
    match s.pc with
    | .write p =>
      if n ≤ p.length then
        some ({ s with fs := appended c s.fs p n, size := s.size + n, pc := .idle }, [.wrote p n])
      else none
    | _ => none
  | .wake now files =>
    if s.signal && s.mill.isEmpty then
      if c.maxBackups = 0 ∧ c.maxAge = 0 ∧ c.compress = false then some ({ s with signal := false }, [])
      else
        match oldFiles c s.fs.keys with
        | none => some (restart s.fs, [.panicked])
        | some l =>
          if files.isPerm l && newestFirst files then
            some ({ s with signal := false, mill := actions c now files }, [])
          else none
    else none
  | .act ok junk =>
    match s.mill with
    | m :: rest => some (act c s m rest ok junk)
    | [] => none
  | .crash n =>
    match s.pc with
    | .write p =>
      if n ≤ p.length then some (restart (appended c s.fs p n), [.torn p n]) else none
    | _ => if n = 0 then some (restart s.fs, []) else none

/-- A whole execution and what was seen of it. -/
def run (c : Cfg) : St → List Op → Option (St × List Event)
  | s, [] => some (s, [])
  | s, op :: ops =>
    match step c s op with
    | none => none
    | some (s', ev) =>
      match run c s' ops with
      | none => none
      | some (s'', evs) => some (s'', ev ++ evs)

end Motan.LogFile
