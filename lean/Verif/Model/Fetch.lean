import Verif.Model.Base

/-! # `fetchSchema` (utils.go:238-255)

The function is not called anywhere (the call in schema.go:33-37 is commented out).  The server is a parameter: what `Get` gives for a
URL, and what each `Read` of the body gives.  Redirects and everything else inside `http.Client` belong to the server.  What is done
with bodies is recorded. -/

namespace Xgen

/-- The bytes of a body (utils.go:239). -/
abbrev Octets := List UInt8

/-- What a `Read` of a body reports besides its bytes: nothing, the end or a failure (io.Reader, reached from utils.go:249). -/
inductive Reported where
  | nothing
  | eof
  | failure
deriving DecidableEq

/-- A response: its status and what the successive `Read`s of the body give (net/http, reached from utils.go:242).  A body whose reads are used up is at its end. -/
structure Response where
  status : Nat
  reads : List (Octets × Reported)
deriving DecidableEq

/-- Errors of `fetchSchema`: those of `Get` and those of `ReadAll` (utils.go:244, 251). -/
inductive FetchError where
  | get
  | read
deriving DecidableEq

/-- What is done with bodies (utils.go:242, 246, 249). -/
inductive BodyEvent where
  | opened
  | read
  | closed
deriving DecidableEq

/-- `ioutil.ReadAll` (reached from utils.go:249): the bytes read so far, the error if there is one, and the reads. -/
def readAll : List (Octets × Reported) → Octets × Option FetchError × List BodyEvent
  | [] => ([], none, [.read])
  | (d, .nothing) :: rs => let (b, e, l) := readAll rs; (d ++ b, e, .read :: l)
  | (d, .eof) :: _ => (d, none, [.read])
  | (d, .failure) :: _ => (d, some .read, [.read])

/-- `fetchSchema` (utils.go:238-255): the body, the error and what was done.  The deferred `Close` comes last. -/
def fetchSchema (get : Str → Option Response) (url : Str) : Octets × Option FetchError × List BodyEvent :=
  match get url with
  | none => ([], some .get, [])
  | some resp =>
    if resp.status = 200 then
      let (b, e, l) := readAll resp.reads
      (b, e, .opened :: l ++ [.closed])
    else ([], none, [.opened, .closed])

end Xgen
