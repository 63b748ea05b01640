import Verif.Model.Tools
/-!
# Model of cdtb/storage.py, `Storage.fspath` and `Storage.download` (lines 236-255)
-/
namespace Cdtb
set_option autoImplicit false
open Py

/-- `Storage.fspath`: cdtb/storage.py:236-238 -/
def storageFspath (base path : Str) : Str := pjoin base path

/-- One call of `Storage.download`: its arguments, what the request gives (the content of the
response, or the exception of the request or of `raise_for_status`), and the faults of the disk. -/
structure DownloadCall where
  urlpath : Str
  path : Option Str
  force : Bool
  response : Res Bytes
  faults : WriteFaults

/-- The path on disk: cdtb/storage.py:245-247 -/
def DownloadCall.dest (base : Str) (c : DownloadCall) : Str :=
  storageFspath base (c.path.getD c.urlpath)

/-- `Storage.download`: cdtb/storage.py:240-255. The boolean tells whether a request was made. -/
def download (base : Str) (fs : FS) (c : DownloadCall) : FS × Res Unit × Bool :=
  if !c.force && fs.isFile (c.dest base) then (fs, .ok (), false)
  else match c.response with
    | .error e => (fs, .error e, true)
    | .ok content =>
      let (fs', r) := writeFileOrRemove fs (c.dest base) [.write content] c.faults
      (fs', r, true)

/-- A history of calls (each may fail, the next ones still happen). -/
def downloads (base : Str) (fs : FS) (cs : List DownloadCall) : FS :=
  cs.foldl (fun fs c => (download base fs c).1) fs

/-- A crash (power loss, kill) while writing: the body has been partly written and the handler does
not run. `k` bytes of the content have reached the disk. -/
def downloadCrash (base : Str) (fs : FS) (c : DownloadCall) (content : Bytes) (k : Nat) : FS :=
  (fs.makedirs (dirname (c.dest base)) none).1.set (c.dest base) (some (.file (content.take k)))

end Cdtb
