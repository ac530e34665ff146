import Verif.Basic.Bytes
import Verif.Basic.AMap
import Verif.Basic.Decimal

/-!
# What the manage port says about the machine and the process (manageHandler.go:381-457, 459-505, 519-533)

What the operating system says (through gopsutil) is a parameter: every reading may fail. Percentages, loads and times are passed on
by the code and left out, and so are the JSON and the texts of the host. A nil pointer behind an ignored error is `none`.
-/

namespace Motan.MachinePage

/-- The counters of an interface (`net.IOCountersStat`). -/
structure Counter where
  name : Bytes
  sent : UInt64
  recv : UInt64
deriving DecidableEq

/-- One reading: `net.IOCounters(true)` (empty after an error), and `net.IOCounters(false)[0]`, none after an error. -/
structure Reading where
  each : List Counter
  total : Option Counter
deriving DecidableEq

/-- manageHandler.go:325-330 `StatNetInfo`. -/
structure Info where
  name : Bytes
  ip : List Bytes
  sent : UInt64
  recv : UInt64
deriving DecidableEq

/-- manageHandler.go:398-405: the first reading, by name. -/
def before (r : Reading) : AMap Bytes Counter :=
  let m := r.each.foldl (fun m c => AMap.store m c.name c) []
  match r.total with
  | none => m
  | some t => AMap.store m t.name t

/-- manageHandler.go:407-415: the addresses of the interfaces, by name. -/
def addresses (ifs : List (Bytes × List Bytes)) : AMap Bytes (List Bytes) :=
  ifs.foldl (fun m p => AMap.store m p.1 p.2) []

/-- manageHandler.go:419-424, 427-431: the rates of a counter; a name that was not there counts from zero. -/
def rate (m : AMap Bytes Counter) (ip : List Bytes) (c : Counter) : Info :=
  let c0 := (AMap.load m c.name).getD ⟨c.name, 0, 0⟩
  { name := c.name, ip := ip, sent := c.sent - c0.sent, recv := c.recv - c0.recv }

/-- manageHandler.go:416-432: the entries of the page; the second reading is a second after the first. -/
def netInfo (first second : Reading) (ifs : List (Bytes × List Bytes)) : List Info :=
  second.each.map (fun c => rate (before first) ((AMap.load (addresses ifs) c.name).getD []) c) ++
    match second.total with
    | none => []
    | some t => [rate (before first) [] t]

/-- manageHandler.go:388-397 `StatMemInfo`, in megabytes: total and used, of the memory and of the swap space. -/
structure Mem where
  total : UInt64
  used : UInt64
  swapTotal : UInt64
  swapUsed : UInt64
deriving DecidableEq

/-- What the system says, apart from the network: total and used bytes of memory and swap, the cores of each processor, and whether
`load.Avg` and `host.Info` gave something. -/
structure System where
  memory : Option (UInt64 × UInt64)
  swap : Option (UInt64 × UInt64)
  cores : List Int32
  load : Bool
  host : Bool

/-- The page of the machine. -/
structure Page where
  cores : Int32
  mem : Mem
  net : List Info

/-- manageHandler.go:381-457 `StatSystem`; none: panic. -/
def statSystem (s : System) (first second : Reading) (ifs : List (Bytes × List Bytes)) : Option Page :=
  match s.memory, s.swap with
  | some m, some w =>
    if s.load ∧ s.host then
      some { cores := s.cores.foldl (· + ·) 0
             mem := ⟨m.1 >>> 20, m.2 >>> 20, w.1 >>> 20, w.2 >>> 20⟩
             net := netInfo first second ifs }
    else none
  | _, _ => none

/-- manageHandler.go:332-336 `StatConn`. -/
structure Conns where
  listen : UInt32 := 0
  established : UInt32 := 0
  timeWait : UInt32 := 0
deriving DecidableEq

/-- manageHandler.go:466-476: the connections by their states. -/
def countConns (states : List Bytes) : Conns :=
  states.foldl (fun c s =>
    if s = b!"LISTEN" then { c with listen := c.listen + 1 }
    else if s = b!"ESTABLISHED" then { c with established := c.established + 1 }
    else if s = b!"TIME_WAIT" then { c with timeWait := c.timeWait + 1 }
    else c) {}

/-- manageHandler.go:345-351 `StatIOInfo`. -/
structure IO where
  readTotal : UInt64
  readRate : UInt64
  writeTotal : UInt64
  writeRate : UInt64
deriving DecidableEq

/-- manageHandler.go:481-491: the bytes read and written, and by how much they grew in a second. A first reading that fails leaves
them out; a second one that fails is a panic (the outer none). -/
def statIO (first second : Option (UInt64 × UInt64)) : Option (Option IO) :=
  match first with
  | none => some none
  | some a =>
    match second with
    | none => none
    | some b => some (some ⟨b.1, b.1 - a.1, b.2, b.2 - a.2⟩)

/-- A connection of the process (`net.ConnectionStat`). -/
structure Conn where
  fd : UInt32
  status : Bytes
  localIP : Bytes
  localPort : UInt32
  remoteIP : Bytes
  remotePort : UInt32
deriving DecidableEq

/-- manageHandler.go:338-343 `StatConnInfo`. -/
structure ConnInfo where
  fd : UInt32
  status : Bytes
  localAddr : Bytes
  remoteAddr : Bytes
deriving DecidableEq

/-- manageHandler.go:519-533 `StatConnections`. -/
def listConns (cs : List Conn) : List ConnInfo :=
  cs.map fun c =>
    { fd := c.fd, status := c.status, localAddr := c.localIP ++ b!":" ++ natDigits c.localPort.toNat,
      remoteAddr := c.remoteIP ++ b!":" ++ natDigits c.remotePort.toNat }

end Motan.MachinePage
