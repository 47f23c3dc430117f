import Verif.Model.ConfLine

/-!
# A client gets its certificate: `src/client/ca.c`

Not Windows. Memory does not run out, and paths are not longer than their buffers. The program that makes the key
and the request is a parameter, and so is what comes over the connection; messages that come between are left
out, the transfer of files is that of `Verif.Transfer`. The file system is a function from paths.
-/

namespace Verif.CaClient
open Verif Verif.ConfLine

abbrev FS := Str → Option Str

inductive Op where
  | put (p s : Str)
  | del (p : Str)
  | mv (a b : Str)
  deriving DecidableEq, Repr

/-- What an operation does. Renaming something that is not there does nothing. -/
def Op.run (fs : FS) : Op → FS
  | .put p s => fun q => if q = p then some s else fs q
  | .del p => fun q => if q = p then none else fs q
  | .mv a b => match fs a with
    | none => fs
    | some s => fun q => if q = b then some s else if q = a then none else fs q

def runAll (fs : FS) (ops : List Op) : FS := ops.foldl Op.run fs

/-- The paths in the settings. The temporary ones end in the number of the process, `src/client/ca.c:84-85,229-232`. -/
structure Paths where
  key : Str
  csr : Str
  cert : Str
  ca : Str
  conf : Str
  pid : Str
  deriving DecidableEq, Repr

def Paths.tmp (n : Paths) (p : Str) : Str := p ++ [dot] ++ n.pid

/-- What happens to be the case. -/
structure World where
  /-- the answer to `csr`, if any -/
  answer : Option Str
  /-- the server says `nocsr ok` -/
  nocsrOk : Bool
  /-- what `burp_ca` writes, and whether it succeeds -/
  generated : List Op
  generatedOk : Bool
  /-- the request can be sent -/
  sent : Bool
  /-- what is received as certificate, and whether it arrived whole -/
  cert : Str
  certOk : Bool
  ca : Str
  caOk : Bool
  /-- whether the files can be renamed, and the new configuration written -/
  mvCert : Bool
  mvCa : Bool
  written : Bool
  mvConf : Bool

/-- Reading with `fgets` and a buffer of 4096 bytes, again and again. `cur` is the line so far. -/
def gets (cur : Str) : Str → List Str
  | [] => if cur = [] then [] else [cur]
  | x :: xs =>
    if x = newline ∨ (cur ++ [x]).length = 4095 then (cur ++ [x]) :: gets [] xs else gets (cur ++ [x]) xs

/-- A line of the new file, `src/client/ca.c:101-119`; `none` if memory outside of the line is looked at. -/
def rewriteLine (name l : Str) : Option Str :=
  match getPair l with
  | .undefined => none
  | .error => some l
  | .blank => some l
  | .pair f _ _ => if f = bytes "ssl_peer_cn" then some (bytes "ssl_peer_cn = " ++ name ++ [newline]) else some l

/-- The lines of the new file, `src/client/ca.c:91-120`. -/
def rewriteLines (name : Str) : List Str → Option (List Str)
  | [] => some []
  | l :: ls => match rewriteLine name l, rewriteLines name ls with
    | some a, some as => some (a :: as)
    | _, _ => none

/-- The new file. -/
def rewritten (name content : Str) : Option Str := (rewriteLines name (gets [] content)).map List.flatten

/-- What is done, and what is returned. -/
inductive Out where
  | undefined
  | done (ops : List Op) (ret : Int)
  deriving DecidableEq, Repr

/-- `rewrite_client_conf`, `src/client/ca.c:73-152`. -/
def rewriteConf (n : Paths) (w : World) (name : Str) (fs : FS) : Out :=
  let tmp := n.tmp n.conf
  match fs n.conf with
  | none => .done [.del tmp] (-1)
  | some old => match rewritten name old with
    | none => .undefined
    | some new =>
      if !w.written then .done [.put tmp new, .del tmp] (-1)
      else if old = new then .done [.put tmp new, .del tmp] 0
      else if !w.mvConf then .done [.put tmp new, .del tmp] (-1)
      else .done [.put tmp new, .mv tmp n.conf] 0

/-- What is removed after an error, `src/client/ca.c:256-267`. The names of the temporary files may not be set
yet. -/
def cleanup (n : Paths) (tmps : Bool) : List Op :=
  [.del n.csr, .del n.key, .del n.cert, .del n.ca] ++
    (if tmps then [.del (n.tmp n.cert), .del (n.tmp n.ca)] else [])

/-- `ca_client_setup`, `src/client/ca.c:172-271`. `set` says that all that is needed is set, and `peer` is the name
of the server in the settings. -/
def setup (n : Paths) (set : Bool) (peer : Str) (w : World) (fs : FS) : Out :=
  if !set || (fs n.key).isSome then .done [] (if w.nocsrOk then 0 else -1)
  else match w.answer with
  | none => .done [] (-1)
  | some a =>
    if !(bytes "csr ok:").isPrefixOf a then .done [] (-1)
    else
      let name := a.drop 7
      let o := w.generated
      if !w.generatedOk then .done (o ++ cleanup n false) (-1)
      else if !w.sent then .done (o ++ cleanup n false) (-1)
      else
        let o := o ++ [.put (n.tmp n.cert) w.cert]
        if !w.certOk then .done (o ++ cleanup n true) (-1)
        else
          let o := o ++ [.put (n.tmp n.ca) w.ca]
          if !w.caOk then .done (o ++ cleanup n true) (-1)
          else if !w.mvCert then .done (o ++ cleanup n true) (-1)
          else
            let o := o ++ [.mv (n.tmp n.cert) n.cert]
            if !w.mvCa then .done (o ++ cleanup n true) (-1)
            else
              let o := o ++ [.mv (n.tmp n.ca) n.ca]
              if name.isPrefixOf peer then .done o 1
              else match rewriteConf n w name (runAll fs o) with
                | .undefined => .undefined
                | .done p r => if r ≠ 0 then .done (o ++ p ++ cleanup n true) (-1) else .done (o ++ p) 1

end Verif.CaClient
