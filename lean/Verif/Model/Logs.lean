import Verif.Model.Parser
/-!
# Exported log lines (minter/src/logs.rs)

The buffers of the crate `ic_canister_log` are lists of lines, oldest first. JSON texts are lists of characters, written as the crate
`serde_json` does (its default, compact form); their size is that of the UTF-8 encoding.
-/

namespace EvmMinter
namespace Logs

/-- `Priority` (logs.rs:28-33). -/
inductive Priority where
  | info | traceHttp | debug
deriving DecidableEq, Repr

/-- `Sort` (logs.rs:48-52). -/
inductive Order where
  | ascending | descending
deriving DecidableEq, Repr

/-- `to_lowercase` on ASCII. Of the other characters none becomes a letter of the words that are compared below. -/
def lower (s : List Char) : List Char := s.map Char.toLower

/-- `Priority::from_str` (logs.rs:35-46). -/
def Priority.parse (s : List Char) : Option Priority :=
  if lower s = "info".toList then some .info
  else if lower s = "trace_http".toList then some .traceHttp
  else if lower s = "debug".toList then some .debug
  else none

/-- `Sort::from_str` (logs.rs:54-64). -/
def Order.parse (s : List Char) : Option Order :=
  if lower s = "asc".toList then some .ascending
  else if lower s = "desc".toList then some .descending
  else none

/-- A line of a buffer (`ic_canister_log::LogEntry`). -/
structure Line where
  timestamp : Nat
  file : List Char
  line : Nat
  message : List Char
  counter : Nat
deriving DecidableEq, Repr

/-- `LogEntry` (logs.rs:66-74). -/
structure Entry where
  timestamp : Nat
  priority : Priority
  file : List Char
  line : Nat
  message : List Char
  counter : Nat
deriving DecidableEq, Repr

/-- The three buffers (logs.rs:6-12). -/
structure Buffers where
  info : List Line
  traceHttp : List Line
  debug : List Line

/-- The entry for a line (logs.rs:89-96). -/
def Line.entry (p : Priority) (l : Line) : Entry := ⟨l.timestamp, p, l.file, l.line, l.message, l.counter⟩

/-- `push_logs` (logs.rs:82-98). -/
def pushLogs (b : Buffers) (log : List Entry) (p : Priority) : List Entry :=
  log ++ (match p with
    | .info => b.info
    | .traceHttp => b.traceHttp
    | .debug => b.debug).map (Line.entry p)

/-- `push_all` (logs.rs:100-104). -/
def pushAll (b : Buffers) (log : List Entry) : List Entry :=
  pushLogs b (pushLogs b (pushLogs b log .info) .traceHttp) .debug

/-- The decimal digits of a number below `10 ^ fuel`. -/
def digits : Nat → Nat → List Char
  | 0, _ => []
  | fuel + 1, n => if n < 10 then [hexChar n] else digits fuel (n / 10) ++ [hexChar (n % 10)]

/-- The decimal digits of a number. -/
def decimal (n : Nat) : List Char := digits (n + 1) n

/-- A character inside a JSON string. -/
def escape (c : Char) : List Char :=
  if c = '"' then ['\\', '"']
  else if c = '\\' then ['\\', '\\']
  else if c = '\x08' then ['\\', 'b']
  else if c = '\x0c' then ['\\', 'f']
  else if c = '\n' then ['\\', 'n']
  else if c = '\r' then ['\\', 'r']
  else if c = '\t' then ['\\', 't']
  else if c.toNat < 32 then ['\\', 'u', '0', '0', hexChar (c.toNat / 16), hexChar (c.toNat % 16)]
  else [c]

/-- A JSON string. -/
def quoted (s : List Char) : List Char := '"' :: (s.flatMap escape ++ ['"'])

/-- The name of a priority in JSON: that of the variant. -/
def Priority.name : Priority → List Char
  | .info => "Info".toList
  | .traceHttp => "TraceHttp".toList
  | .debug => "Debug".toList

/-- The JSON object of an entry: its fields in the order of logs.rs:66-74. -/
def Entry.json (e : Entry) : List Char :=
  "{\"timestamp\":".toList ++ (decimal e.timestamp ++ (",\"priority\":".toList ++ (quoted e.priority.name ++
  (",\"file\":".toList ++ (quoted e.file ++ (",\"line\":".toList ++ (decimal e.line ++
  (",\"message\":".toList ++ (quoted e.message ++ (",\"counter\":".toList ++ (decimal e.counter ++ ['}'])))))))))))

/-- The elements of a JSON array, from the second on. -/
def moreJson : List Entry → List Char
  | [] => []
  | e :: t => ',' :: (e.json ++ moreJson t)

/-- The elements of a JSON array. -/
def entriesJson : List Entry → List Char
  | [] => []
  | e :: t => e.json ++ moreJson t

/-- `serde_json::to_string` of a `Log` (logs.rs:76-79); it does not fail. -/
def toJson (log : List Entry) : List Char := "{\"entries\":[".toList ++ (entriesJson log ++ "]}".toList)

/-- `String::len`: the number of bytes in UTF-8. -/
def size (s : List Char) : Nat := (s.map Char.utf8Size).sum

/-- The search in `serialize_logs` (logs.rs:113-125). -/
def search (log : List Entry) (max left right : Nat) (json : List Char) : List Char :=
  if left < right then
    let mid := left + (right - left) / 2
    if size (toJson (log.take mid)) ≤ max then search log max (mid + 1) right (toJson (log.take mid))
    else search log max left mid json
  else json
termination_by right - left
decreasing_by all_goals omega

/-- `serialize_logs` (logs.rs:106-128). -/
def serialize (log : List Entry) (max : Nat) : List Char :=
  if size (toJson log) > max then search log max 0 log.length (toJson log) else toJson log

/-- `sort_logs` (logs.rs:130-143); `sort_by` is stable. -/
def sortLogs (log : List Entry) : Order → List Entry
  | .ascending => log.mergeSort fun a b => decide (a.timestamp ≤ b.timestamp)
  | .descending => log.mergeSort fun a b => decide (b.timestamp ≤ a.timestamp)

end Logs
end EvmMinter
