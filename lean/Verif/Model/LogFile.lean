import Verif.Model.Writer
/-!
# What a log file contains
The bytes that the `io.Writer` of a `WriterSink` or `JsonWriterSink` gets from a sequence of calls.  Each method makes one `Write` as its last action
(writer_sink.go:24-95, json_writer_sink.go:13-90); calls are taken in the order of their `Write`s, and a `Write` is atomic (as it is for `os.File`).
-/
namespace LogFile

/-- a call with the clock reading of its `timestamp()` (writer_sink.go:97-99). -/
abbrev Timed := Int × SinkCall

/-- the file of a `WriterSink`; `none`: a call panicked. -/
def text : List Timed → Option Str
  | [] => some []
  | x :: t => (WriterSink.emit x.1 x.2.job x.2.payload x.2.seen).bind (fun w => (text t).map (fun r => w.flatten ++ r))

/-- the file of a `JsonWriterSink`. -/
def json (cs : List Timed) : Str := cs.flatMap (fun x => (JsonWriterSink.emit x.1 x.2.job x.2.payload x.2.seen).flatten)

end LogFile
