import Verif.Model.Stream
import Verif.Model.Stack
import Verif.Model.Writer
/-!
# Bugsnag notifications
Models /repo/sinks/bugsnag/api.go (`newPayload`, its JSON, and how the answer is judged).  The HTTP request is a parameter.
What the sink queues is in Verif/Model/Stream.lean (`bugsnagReport`), its goroutine in Verif/Model/SinkLoop.lean.
-/
namespace Bugsnag

/-- api.go:12-34 `Config`. -/
structure Config where
  apiKey : Str
  endpoint : Str
  releaseStage : Str
  appVersion : Str
  hostname : Str
deriving DecidableEq, Repr

/-- sink.go:26-28: the default of `NewSink`. -/
def Config.withDefault (c : Config) : Config :=
  if c.endpoint = [] then { c with endpoint := bs "https://notify.bugsnag.com/" } else c

/-- api.go:84-90 and :132-137. -/
def frameJson (f : Stack.Frame) : JVal :=
  .obj [(bs "file", .str f.file), (bs "lineNumber", .int f.line), (bs "method", .str (f.package ++ [58] ++ f.name)),
    (bs "inProject", .bool (!f.isSystem))]

/-- api.go:131-139: the slice is nil (null) without frames. -/
def framesJson (fs : List Stack.Frame) : JVal := if fs = [] then .null else .arr (fs.map frameJson)

/-- api.go:126-167 `newPayload` with the JSON tags of :36-95.  `message` = `err.Error()`. -/
def newPayload (config : Config) (jobName eventName message : Str) (frames : List Stack.Frame) (kvs : Option (GoMap Str Str)) : JVal :=
  let except := JVal.obj [(bs "errorClass", .str eventName), (bs "message", .str message), (bs "stacktrace", framesJson frames)]
  let url := ((kvs.getD []).get? (bs "request")).getD []
  let parameters := ((kvs.getD []).get? (bs "formdata")).getD []
  let evt := JVal.obj [(bs "payloadVersion", .str (bs "2")), (bs "exceptions", .arr [except]), (bs "context", .str jobName),
    (bs "app", .obj [(bs "releaseStage", .str config.releaseStage)]), (bs "device", .obj [(bs "hostname", .str config.hostname)]),
    (bs "metaData", .obj [(bs "request", .obj [(bs "url", .str url), (bs "parameters", .str parameters)]), (bs "kvs", JsonWriterSink.kvsJson kvs)])]
  .obj [(bs "apiKey", .str config.apiKey),
    (bs "notifier", .obj [(bs "name", .str (bs "health")), (bs "version", .str (bs "1.0")), (bs "url", .str (bs "https://www.github.com/gocraft/health"))]),
    (bs "events", .arr [evt])]

/-- what the server answers: no answer (error of the request or of reading the body), or a body. -/
inductive Answer where
  | none
  | body (b : Str)
deriving DecidableEq, Repr

/-- api.go:98-124 `Notify`: the bytes posted (to `config.Endpoint`), and whether it returns nil. -/
def notify (config : Config) (jobName eventName message : Str) (frames : List Stack.Frame) (kvs : Option (GoMap Str Str)) (answer : Answer) :
    Option Str × Bool :=
  match (newPayload config jobName eventName message frames kvs).marshalIndent [9] with
  | none => (none, false)
  | some data =>
    match answer with
    | .none => (some data, false)
    | .body b => (some data, b = bs "OK")

end Bugsnag
