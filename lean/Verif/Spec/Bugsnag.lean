import Verif.Spec.Writer
import Verif.Model.Bugsnag
/-!
# Specification of a Bugsnag notification and of function names
-/
namespace Spec

/-- a frame of the trace. -/
structure ShowsFrame (j : Json) (f : Stack.Frame) : Prop where
  file : j.field (bs "file") = some (.str f.file)
  line : j.field (bs "lineNumber") = some (.num f.line)
  method : j.field (bs "method") = some (.str (f.package ++ bs ":" ++ f.name))
  inProject : j.field (bs "inProject") = some (.bool (!f.isSystem))

/-- the frames, in order; null if there are none. -/
def ShowsFrames (j : Json) (fs : List Stack.Frame) : Prop :=
  (fs = [] ∧ j = .null) ∨ ∃ xs, j = .arr xs ∧ List.Forall₂ ShowsFrame xs fs

/-- a notification of one error. -/
structure Notifies (c : Bugsnag.Config) (job event message : Str) (fs : List Stack.Frame) (kvs : Option (GoMap Str Str)) (j : Json) : Prop where
  apiKey : j.field (bs "apiKey") = some (.str c.apiKey)
  event : ∃ e x app device meta', j.field (bs "events") = some (.arr [e]) ∧ e.field (bs "context") = some (.str job) ∧
    e.field (bs "payloadVersion") = some (.str (bs "2")) ∧
    e.field (bs "exceptions") = some (.arr [x]) ∧ x.field (bs "errorClass") = some (.str event) ∧ x.field (bs "message") = some (.str message) ∧
    (∃ s, x.field (bs "stacktrace") = some s ∧ ShowsFrames s fs) ∧
    e.field (bs "app") = some app ∧ app.field (bs "releaseStage") = some (.str c.releaseStage) ∧
    e.field (bs "device") = some device ∧ device.field (bs "hostname") = some (.str c.hostname) ∧
    e.field (bs "metaData") = some meta' ∧ (∃ k, meta'.field (bs "kvs") = some k ∧ IsKvs k kvs) ∧
    ∃ r, meta'.field (bs "request") = some r ∧
      r.field (bs "url") = some (.str (((kvs.bind (·.get? (bs "request"))).getD []))) ∧
      r.field (bs "parameters") = some (.str (((kvs.bind (·.get? (bs "formdata"))).getD [])))
  notifier : ∃ n, j.field (bs "notifier") = some n ∧ n.field (bs "name") = some (.str (bs "health")) ∧
    n.field (bs "version") = some (.str (bs "1.0")) ∧ n.field (bs "url") = some (.str (bs "https://www.github.com/gocraft/health"))

/-- a function's full name taken apart: a directory (empty or ending in a slash), the last element of the package's path, a dot, the
name within the package; or, if there is no dot after the last slash, just a directory and a name. -/
structure NameParts (full pkg name : Str) : Prop where
  noSlash : (47 : UInt8) ∉ name
  parts : ∃ dir last, pkg = dir ++ last ∧ (dir = [] ∨ dir.getLast? = some 47) ∧ (47 : UInt8) ∉ last ∧ (46 : UInt8) ∉ last ∧
    (full = dir ++ last ++ [46] ++ name ∨ (last = [] ∧ (46 : UInt8) ∉ name ∧ full = dir ++ name))

end Spec

namespace Spec

/-- the file is in the directory or below it. -/
def Below (dir file : Str) : Prop := ∃ rest, file = dir ++ bs "/" ++ rest

end Spec
