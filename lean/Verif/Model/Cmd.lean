import Verif.Model.PathCmp

/-!
# Record kinds: `src/cmd.h`, `src/cmd.c`
-/

namespace Verif

/-- `enum cmd`, src/cmd.h:6-61. -/
inductive Cmd where
  | attribs | file | encFile | directory | softLink | hardLink | special
  | metadata | encMetadata | efsFile | datapth | vss | encVss | vssT | encVssT
  | gen | error | append | interrupt | message | warning | endFile | fileChanged | timestamp
  | manifest | savePath | total | grandTotal | bytesEstimated | bytes | bytesRecv | bytesSent
  | timestampEnd
  deriving DecidableEq, Repr

namespace Cmd

/-- The character of each command, src/cmd.h:12-60. -/
def toByte : Cmd → Byte
  | attribs => 114      -- r
  | file => 102         -- f
  | encFile => 121      -- y
  | directory => 100    -- d
  | softLink => 108     -- l
  | hardLink => 76      -- L
  | special => 115      -- s
  | metadata => 109     -- m
  | encMetadata => 110  -- n
  | efsFile => 107      -- k
  | datapth => 116      -- t
  | vss => 118          -- v
  | encVss => 86        -- V
  | vssT => 117         -- u
  | encVssT => 85       -- U
  | gen => 99           -- c
  | error => 101        -- e
  | append => 97        -- a
  | interrupt => 105    -- i
  | message => 112      -- p
  | warning => 119      -- w
  | endFile => 120      -- x
  | fileChanged => 122  -- z
  | timestamp => 98     -- b
  | manifest => 77      -- M
  | savePath => 113     -- q
  | total => 89         -- Y
  | grandTotal => 90    -- Z
  | bytesEstimated => 71 -- G
  | bytes => 79         -- O
  | bytesRecv => 80     -- P
  | bytesSent => 81     -- Q
  | timestampEnd => 69  -- E

/-- All commands. -/
def all : List Cmd :=
  [attribs, file, encFile, directory, softLink, hardLink, special, metadata, encMetadata, efsFile,
   datapth, vss, encVss, vssT, encVssT, gen, error, append, interrupt, message, warning, endFile,
   fileChanged, timestamp, manifest, savePath, total, grandTotal, bytesEstimated, bytes, bytesRecv,
   bytesSent, timestampEnd]

/-- `(enum cmd)command`: which command a byte stands for, if any. A byte that stands for none takes
the `default:` branch of every switch. -/
def ofByte (b : Byte) : Option Cmd := all.find? (fun c => c.toByte = b)

/-- `cmd_is_filedata`, src/cmd.c:99-106. -/
def isFiledata : Cmd → Bool
  | file | encFile | metadata | encMetadata | efsFile => true
  | _ => false

/-- `cmd_is_vssdata`, src/cmd.c:108-114. -/
def isVssdata : Cmd → Bool
  | vss | encVss | vssT | encVssT => true
  | _ => false

/-- `cmd_is_link`, src/cmd.c:116-119. -/
def isLink : Cmd → Bool
  | softLink | hardLink => true
  | _ => false

/-- `cmd_is_encrypted`, src/cmd.c:126-133. -/
def isEncrypted : Cmd → Bool
  | encFile | encMetadata | encVss | encVssT | efsFile => true
  | _ => false

/-- `cmd_is_metadata`, src/cmd.c:135-140. -/
def isMetadata (c : Cmd) : Bool :=
  c.isVssdata || c == metadata || c == encMetadata

/-- `cmd_is_estimatable`, src/cmd.c:142-147. -/
def isEstimatable : Cmd → Bool
  | file | encFile | efsFile => true
  | _ => false

end Cmd
end Verif
