import Verif.Val
/-
Model of the configuration of logs: /repo/ngoschema/config/utils.py 34-43 `load_log_config` and the default
configuration /repo/ngoschema/config/settings.py 13-42.

`logging.config.dictConfig` of the standard library is reduced to what it asks of names: the version is 1, formatters are
named by handlers and handlers by loggers only if they are in the configuration. Simplified: what it raises is ValueError;
classes, levels, filters and `incremental` are accepted as they are; sections are mappings of mappings and the handlers
of a logger a list, anything else is refused (unless it counts as false). The file is read and found to be YAML: its
content is a value; of lists only the empty one is followed (a list of pairs would count as a mapping).
-/
namespace Verif.LogConfig

abbrev Cfg := AList Str Val

abbrev version : Str := "version".toList
abbrev formatters : Str := "formatters".toList
abbrev formatter : Str := "formatter".toList
abbrev handlers : Str := "handlers".toList
abbrev loggers : Str := "loggers".toList
abbrev root : Str := "root".toList
abbrev console : Str := "console".toList

/-- settings.py 13-42. The formats are left out. -/
def default : Cfg :=
  [(version, .int 1), ("disable_existing_loggers".toList, .bool false),
   (formatters, .dict [(console, .dict []), ("standard".toList, .dict []), ("verbose".toList, .dict [])]),
   (handlers, .dict [(console, .dict [("class".toList, .str "logging.StreamHandler".toList),
      (formatter, .str console), ("stream".toList, .str "ext://sys.stdout".toList)])]),
   (loggers, .dict [([], .dict [(handlers, .list [.str console]), ("level".toList, .str "INFO".toList)])])]

/-- A section of the configuration: `config.get(name, EMPTY_DICT)`. -/
def section? (cfg : Cfg) (name : Str) : Option (AList Str Val) :=
  match AList.get? cfg name with
  | none => some []
  | some (.dict d) => some d
  | some _ => none

/-- A handler: its formatter is found. -/
def handlerOk (fs : AList Str Val) : Val → Bool
  | .dict h => match AList.get? h formatter with
    | none => true
    | some (.str []) => true
    | some (.str f) => AList.contains fs f
    | some v => !v.truthy
  | _ => false

/-- The name of a handler. -/
def named (hs : AList Str Val) : Val → Bool
  | .str n => AList.contains hs n
  | _ => false

/-- A logger: its handlers are found. -/
def loggerOk (hs : AList Str Val) : Val → Bool
  | .dict l => match AList.get? l handlers with
    | none => true
    | some (.list ns) => ns.all (named hs)
    | some v => !v.truthy
  | _ => false

/-- The root logger: `root = config.get('root', None); if root: ...`. -/
def rootOk (hs : AList Str Val) (cfg : Cfg) : Bool :=
  match AList.get? cfg root with
  | none => true
  | some v => !v.truthy || loggerOk hs v

/-- `logging.config.dictConfig(cfg)`. -/
def dictConfig (cfg : Cfg) : Res Unit :=
  if AList.get? cfg version ≠ some (.int 1) then .error .valueError
  else match section? cfg formatters, section? cfg handlers, section? cfg loggers with
    | some fs, some hs, some ls =>
      if hs.all (fun p => handlerOk fs p.2) && ls.all (fun p => loggerOk hs p.2) && rootOk hs cfg then .ok ()
      else .error .valueError
    | _, _, _ => .error .valueError

/-- utils.py 37-41: `cfg.update(cfg2)` on a copy. -/
def combined (dflt : Cfg) : Val → Res Cfg
  | .dict f => .ok (AList.update dflt f)
  | .str [] => .ok dflt
  | .list [] => .ok dflt
  | .str _ => .error .valueError
  | .list _ => .error .valueError
  | _ => .error .typeError

/-- utils.py 35-43 `load_log_config`, given the content of the file. -/
def load (dflt : Cfg) (file : Val) : Res Cfg :=
  match combined dflt file with
  | .error e => .error e
  | .ok cfg => match dictConfig cfg with
    | .error e => .error e
    | .ok () => .ok cfg

end Verif.LogConfig
