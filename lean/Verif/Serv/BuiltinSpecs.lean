import Verif.Serv.Services

/-! # The specifications of the built-in services, copied from the sources, with the settings they are meant to declare

`text` is the constant in the source file, `name` and `opts` (the settings with their default values) were read from it by hand, taking it as
JSON. -/

namespace Verif.Services
open Verif.Cali

/-- a built-in service's specification and what it declares (the fields of the constants cited in `builtinSpecs`) -/
structure BSpec where
  text : Str
  name : Str
  opts : List (Str × Str)

/-- `src/services/LoopStatistics.cpp`:108-113; `text` is
```
{
 "name": "loop_statistics",
 "description": "Record loop iteration statistics"
}
```
-/
def spec_loop_statistics : BSpec := ⟨[10, 123, 10, 32, 34, 110, 97, 109, 101, 34, 58, 32, 34, 108, 111, 111, 112, 95, 115, 116, 97, 116, 105, 115, 116, 105, 99, 115, 34, 44, 10, 32, 34, 100, 101, 115, 99, 114, 105, 112, 116, 105, 111, 110, 34, 58, 32, 34, 82, 101, 99, 111, 114, 100, 32, 108, 111, 111, 112, 32, 105, 116, 101, 114, 97, 116, 105, 111, 110, 32, 115, 116, 97, 116, 105, 115, 116, 105, 99, 115, 34, 10, 125, 10], str "loop_statistics", []⟩

/-- `src/services/adiak/AdiakImport.cpp`:275-288; `text` is
```
{
"name"        : "adiak_import",
"description" : "Import program run metadata from Adiak",
"config"      :
[
{
 "name": "categories",
 "type": "string",
 "description": "List of Adiak categories to import",
 "value": "2,3"
}
]}
```
-/
def spec_adiak_import : BSpec := ⟨[10, 123, 10, 34, 110, 97, 109, 101, 34, 32, 32, 32, 32, 32, 32, 32, 32, 58, 32, 34, 97, 100, 105, 97, 107, 95, 105, 109, 112, 111, 114, 116, 34, 44, 10, 34, 100, 101, 115, 99, 114, 105, 112, 116, 105, 111, 110, 34, 32, 58, 32, 34, 73, 109, 112, 111, 114, 116, 32, 112, 114, 111, 103, 114, 97, 109, 32, 114, 117, 110, 32, 109, 101, 116, 97, 100, 97, 116, 97, 32, 102, 114, 111, 109, 32, 65, 100, 105, 97, 107, 34, 44, 10, 34, 99, 111, 110, 102, 105, 103, 34, 32, 32, 32, 32, 32, 32, 58, 10, 91, 10, 123, 10, 32, 34, 110, 97, 109, 101, 34, 58, 32, 34, 99, 97, 116, 101, 103, 111, 114, 105, 101, 115, 34, 44, 10, 32, 34, 116, 121, 112, 101, 34, 58, 32, 34, 115, 116, 114, 105, 110, 103, 34, 44, 10, 32, 34, 100, 101, 115, 99, 114, 105, 112, 116, 105, 111, 110, 34, 58, 32, 34, 76, 105, 115, 116, 32, 111, 102, 32, 65, 100, 105, 97, 107, 32, 99, 97, 116, 101, 103, 111, 114, 105, 101, 115, 32, 116, 111, 32, 105, 109, 112, 111, 114, 116, 34, 44, 10, 32, 34, 118, 97, 108, 117, 101, 34, 58, 32, 34, 50, 44, 51, 34, 10, 125, 10, 93, 125, 10], str "adiak_import", [(str "categories", str "2,3")]⟩

/-- `src/services/aggregate/Aggregate.cpp`:363-376; `text` is
```
{
 "name"        : "aggregate",
 "description" : "Aggregate snapshots at runtime",
 "config" :
 [
  {
   "name"        : "key",
   "description" : "Immediate attributes to include in the aggregation key (group by)",
   "type"        : "string"
  }
 ]
}
```
-/
def spec_aggregate : BSpec := ⟨[10, 123, 10, 32, 34, 110, 97, 109, 101, 34, 32, 32, 32, 32, 32, 32, 32, 32, 58, 32, 34, 97, 103, 103, 114, 101, 103, 97, 116, 101, 34, 44, 10, 32, 34, 100, 101, 115, 99, 114, 105, 112, 116, 105, 111, 110, 34, 32, 58, 32, 34, 65, 103, 103, 114, 101, 103, 97, 116, 101, 32, 115, 110, 97, 112, 115, 104, 111, 116, 115, 32, 97, 116, 32, 114, 117, 110, 116, 105, 109, 101, 34, 44, 10, 32, 34, 99, 111, 110, 102, 105, 103, 34, 32, 58, 10, 32, 91, 10, 32, 32, 123, 10, 32, 32, 32, 34, 110, 97, 109, 101, 34, 32, 32, 32, 32, 32, 32, 32, 32, 58, 32, 34, 107, 101, 121, 34, 44, 10, 32, 32, 32, 34, 100, 101, 115, 99, 114, 105, 112, 116, 105, 111, 110, 34, 32, 58, 32, 34, 73, 109, 109, 101, 100, 105, 97, 116, 101, 32, 97, 116, 116, 114, 105, 98, 117, 116, 101, 115, 32, 116, 111, 32, 105, 110, 99, 108, 117, 100, 101, 32, 105, 110, 32, 116, 104, 101, 32, 97, 103, 103, 114, 101, 103, 97, 116, 105, 111, 110, 32, 107, 101, 121, 32, 40, 103, 114, 111, 117, 112, 32, 98, 121, 41, 34, 44, 10, 32, 32, 32, 34, 116, 121, 112, 101, 34, 32, 32, 32, 32, 32, 32, 32, 32, 58, 32, 34, 115, 116, 114, 105, 110, 103, 34, 10, 32, 32, 125, 10, 32, 93, 10, 125, 10], str "aggregate", [(str "key", str "")]⟩

/-- `src/services/alloc/AllocService.cpp`:504-533; `text` is
```
{
 "name" : "alloc",
 "description" : "Track user-defined memory allocations",
 "config" :
 [
  {
   "name"        : "resolve_addresses",
   "type"        : "bool",
   "description" : "Resolve memory addresses in snapshots",
   "value"       : "false"
  },{
   "name"        : "track_allocations",
   "type"        : "bool",
   "description" : "Record snapshots for annotated memory regions",
   "value"       : "true"
  },{
   "name"        : "record_active_mem",
   "type"        : "bool",
   "description" : "Record the active allocated memory at each snapshot",
   "value"       : "false"
  },{
   "name"        : "record_highwatermark",
   "type"        : "bool",
   "description" : "Record the high water mark of allocated memory at each snapshot",
   "value"       : "false"
  }
 ]
}
```
-/
def spec_alloc : BSpec := ⟨[10, 123, 10, 32, 34, 110, 97, 109, 101, 34, 32, 58, 32, 34, 97, 108, 108, 111, 99, 34, 44, 10, 32, 34, 100, 101, 115, 99, 114, 105, 112, 116, 105, 111, 110, 34, 32, 58, 32, 34, 84, 114, 97, 99, 107, 32, 117, 115, 101, 114, 45, 100, 101, 102, 105, 110, 101, 100, 32, 109, 101, 109, 111, 114, 121, 32, 97, 108, 108, 111, 99, 97, 116, 105, 111, 110, 115, 34, 44, 10, 32, 34, 99, 111, 110, 102, 105, 103, 34, 32, 58, 10, 32, 91, 10, 32, 32, 123, 10, 32, 32, 32, 34, 110, 97, 109, 101, 34, 32, 32, 32, 32, 32, 32, 32, 32, 58, 32, 34, 114, 101, 115, 111, 108, 118, 101, 95, 97, 100, 100, 114, 101, 115, 115, 101, 115, 34, 44, 10, 32, 32, 32, 34, 116, 121, 112, 101, 34, 32, 32, 32, 32, 32, 32, 32, 32, 58, 32, 34, 98, 111, 111, 108, 34, 44, 10, 32, 32, 32, 34, 100, 101, 115, 99, 114, 105, 112, 116, 105, 111, 110, 34, 32, 58, 32, 34, 82, 101, 115, 111, 108, 118, 101, 32, 109, 101, 109, 111, 114, 121, 32, 97, 100, 100, 114, 101, 115, 115, 101, 115, 32, 105, 110, 32, 115, 110, 97, 112, 115, 104, 111, 116, 115, 34, 44, 10, 32, 32, 32, 34, 118, 97, 108, 117, 101, 34, 32, 32, 32, 32, 32, 32, 32, 58, 32, 34, 102, 97, 108, 115, 101, 34, 10, 32, 32, 125, 44, 123, 10, 32, 32, 32, 34, 110, 97, 109, 101, 34, 32, 32, 32, 32, 32, 32, 32, 32, 58, 32, 34, 116, 114, 97, 99, 107, 95, 97, 108, 108, 111, 99, 97, 116, 105, 111, 110, 115, 34, 44, 10, 32, 32, 32, 34, 116, 121, 112, 101, 34, 32, 32, 32, 32, 32, 32, 32, 32, 58, 32, 34, 98, 111, 111, 108, 34, 44, 10, 32, 32, 32, 34, 100, 101, 115, 99, 114, 105, 112, 116, 105, 111, 110, 34, 32, 58, 32, 34, 82, 101, 99, 111, 114, 100, 32, 115, 110, 97, 112, 115, 104, 111, 116, 115, 32, 102, 111, 114, 32, 97, 110, 110, 111, 116, 97, 116, 101, 100, 32, 109, 101, 109, 111, 114, 121, 32, 114, 101, 103, 105, 111, 110, 115, 34, 44, 10, 32, 32, 32, 34, 118, 97, 108, 117, 101, 34, 32, 32, 32, 32, 32, 32, 32, 58, 32, 34, 116, 114, 117, 101, 34, 10, 32, 32, 125, 44, 123, 10, 32, 32, 32, 34, 110, 97, 109, 101, 34, 32, 32, 32, 32, 32, 32, 32, 32, 58, 32, 34, 114, 101, 99, 111, 114, 100, 95, 97, 99, 116, 105, 118, 101, 95, 109, 101, 109, 34, 44, 10, 32, 32, 32, 34, 116, 121, 112, 101, 34, 32, 32, 32, 32, 32, 32, 32, 32, 58, 32, 34, 98, 111, 111, 108, 34, 44, 10, 32, 32, 32, 34, 100, 101, 115, 99, 114, 105, 112, 116, 105, 111, 110, 34, 32, 58, 32, 34, 82, 101, 99, 111, 114, 100, 32, 116, 104, 101, 32, 97, 99, 116, 105, 118, 101, 32, 97, 108, 108, 111, 99, 97, 116, 101, 100, 32, 109, 101, 109, 111, 114, 121, 32, 97, 116, 32, 101, 97, 99, 104, 32, 115, 110, 97, 112, 115, 104, 111, 116, 34, 44, 10, 32, 32, 32, 34, 118, 97, 108, 117, 101, 34, 32, 32, 32, 32, 32, 32, 32, 58, 32, 34, 102, 97, 108, 115, 101, 34, 10, 32, 32, 125, 44, 123, 10, 32, 32, 32, 34, 110, 97, 109, 101, 34, 32, 32, 32, 32, 32, 32, 32, 32, 58, 32, 34, 114, 101, 99, 111, 114, 100, 95, 104, 105, 103, 104, 119, 97, 116, 101, 114, 109, 97, 114, 107, 34, 44, 10, 32, 32, 32, 34, 116, 121, 112, 101, 34, 32, 32, 32, 32, 32, 32, 32, 32, 58, 32, 34, 98, 111, 111, 108, 34, 44, 10, 32, 32, 32, 34, 100, 101, 115, 99, 114, 105, 112, 116, 105, 111, 110, 34, 32, 58, 32, 34, 82, 101, 99, 111, 114, 100, 32, 116, 104, 101, 32, 104, 105, 103, 104, 32, 119, 97, 116, 101, 114, 32, 109, 97, 114, 107, 32, 111, 102, 32, 97, 108, 108, 111, 99, 97, 116, 101, 100, 32, 109, 101, 109, 111, 114, 121, 32, 97, 116, 32, 101, 97, 99, 104, 32, 115, 110, 97, 112, 115, 104, 111, 116, 34, 44, 10, 32, 32, 32, 34, 118, 97, 108, 117, 101, 34, 32, 32, 32, 32, 32, 32, 32, 58, 32, 34, 102, 97, 108, 115, 101, 34, 10, 32, 32, 125, 10, 32, 93, 10, 125, 10], str "alloc", [(str "resolve_addresses", str "false"), (str "track_allocations", str "true"), (str "record_active_mem", str "false"), (str "record_highwatermark", str "false")]⟩

/-- `src/services/alloc/AllocStatsService.cpp`:240-253; `text` is
```
{
 "name" : "allocstats",
 "description" : "Track memory high-water mark per region",
 "config":
 [
  { "name": "record_highwatermark",
    "description": "Record memory high-water mark",
    "type": "bool",
    "value": "false"
  }
 ]
}
```
-/
def spec_allocstats : BSpec := ⟨[10, 123, 10, 32, 34, 110, 97, 109, 101, 34, 32, 58, 32, 34, 97, 108, 108, 111, 99, 115, 116, 97, 116, 115, 34, 44, 10, 32, 34, 100, 101, 115, 99, 114, 105, 112, 116, 105, 111, 110, 34, 32, 58, 32, 34, 84, 114, 97, 99, 107, 32, 109, 101, 109, 111, 114, 121, 32, 104, 105, 103, 104, 45, 119, 97, 116, 101, 114, 32, 109, 97, 114, 107, 32, 112, 101, 114, 32, 114, 101, 103, 105, 111, 110, 34, 44, 10, 32, 34, 99, 111, 110, 102, 105, 103, 34, 58, 10, 32, 91, 10, 32, 32, 123, 32, 34, 110, 97, 109, 101, 34, 58, 32, 34, 114, 101, 99, 111, 114, 100, 95, 104, 105, 103, 104, 119, 97, 116, 101, 114, 109, 97, 114, 107, 34, 44, 10, 32, 32, 32, 32, 34, 100, 101, 115, 99, 114, 105, 112, 116, 105, 111, 110, 34, 58, 32, 34, 82, 101, 99, 111, 114, 100, 32, 109, 101, 109, 111, 114, 121, 32, 104, 105, 103, 104, 45, 119, 97, 116, 101, 114, 32, 109, 97, 114, 107, 34, 44, 10, 32, 32, 32, 32, 34, 116, 121, 112, 101, 34, 58, 32, 34, 98, 111, 111, 108, 34, 44, 10, 32, 32, 32, 32, 34, 118, 97, 108, 117, 101, 34, 58, 32, 34, 102, 97, 108, 115, 101, 34, 10, 32, 32, 125, 10, 32, 93, 10, 125, 10], str "allocstats", [(str "record_highwatermark", str "false")]⟩

/-- `src/services/callpath/Callpath.cpp`:231-260; `text` is
```
{
 "name"        : "callpath",
 "description" : "Record call stack at each snapshot",
 "config"      :
 [
  {
   "name": "use_name",
   "type": "bool",
   "description": "Record function names",
   "value": "false"
  },{
   "name": "use_address",
   "type": "bool",
   "description": "Record function addresses",
   "value": "true"
  },{
   "name": "skip_frames",
   "type": "uint",
   "description": "Skip this number of stack frames",
   "value": "0"
  },{
   "name": "skip_internal",
   "type": "bool",
   "description": "Skip internal (inside Caliper library) stack frames",
   "value": "true"
  }
 ]
}
```
-/
def spec_callpath : BSpec := ⟨[10, 123, 10, 32, 34, 110, 97, 109, 101, 34, 32, 32, 32, 32, 32, 32, 32, 32, 58, 32, 34, 99, 97, 108, 108, 112, 97, 116, 104, 34, 44, 10, 32, 34, 100, 101, 115, 99, 114, 105, 112, 116, 105, 111, 110, 34, 32, 58, 32, 34, 82, 101, 99, 111, 114, 100, 32, 99, 97, 108, 108, 32, 115, 116, 97, 99, 107, 32, 97, 116, 32, 101, 97, 99, 104, 32, 115, 110, 97, 112, 115, 104, 111, 116, 34, 44, 10, 32, 34, 99, 111, 110, 102, 105, 103, 34, 32, 32, 32, 32, 32, 32, 58, 10, 32, 91, 10, 32, 32, 123, 10, 32, 32, 32, 34, 110, 97, 109, 101, 34, 58, 32, 34, 117, 115, 101, 95, 110, 97, 109, 101, 34, 44, 10, 32, 32, 32, 34, 116, 121, 112, 101, 34, 58, 32, 34, 98, 111, 111, 108, 34, 44, 10, 32, 32, 32, 34, 100, 101, 115, 99, 114, 105, 112, 116, 105, 111, 110, 34, 58, 32, 34, 82, 101, 99, 111, 114, 100, 32, 102, 117, 110, 99, 116, 105, 111, 110, 32, 110, 97, 109, 101, 115, 34, 44, 10, 32, 32, 32, 34, 118, 97, 108, 117, 101, 34, 58, 32, 34, 102, 97, 108, 115, 101, 34, 10, 32, 32, 125, 44, 123, 10, 32, 32, 32, 34, 110, 97, 109, 101, 34, 58, 32, 34, 117, 115, 101, 95, 97, 100, 100, 114, 101, 115, 115, 34, 44, 10, 32, 32, 32, 34, 116, 121, 112, 101, 34, 58, 32, 34, 98, 111, 111, 108, 34, 44, 10, 32, 32, 32, 34, 100, 101, 115, 99, 114, 105, 112, 116, 105, 111, 110, 34, 58, 32, 34, 82, 101, 99, 111, 114, 100, 32, 102, 117, 110, 99, 116, 105, 111, 110, 32, 97, 100, 100, 114, 101, 115, 115, 101, 115, 34, 44, 10, 32, 32, 32, 34, 118, 97, 108, 117, 101, 34, 58, 32, 34, 116, 114, 117, 101, 34, 10, 32, 32, 125, 44, 123, 10, 32, 32, 32, 34, 110, 97, 109, 101, 34, 58, 32, 34, 115, 107, 105, 112, 95, 102, 114, 97, 109, 101, 115, 34, 44, 10, 32, 32, 32, 34, 116, 121, 112, 101, 34, 58, 32, 34, 117, 105, 110, 116, 34, 44, 10, 32, 32, 32, 34, 100, 101, 115, 99, 114, 105, 112, 116, 105, 111, 110, 34, 58, 32, 34, 83, 107, 105, 112, 32, 116, 104, 105, 115, 32, 110, 117, 109, 98, 101, 114, 32, 111, 102, 32, 115, 116, 97, 99, 107, 32, 102, 114, 97, 109, 101, 115, 34, 44, 10, 32, 32, 32, 34, 118, 97, 108, 117, 101, 34, 58, 32, 34, 48, 34, 10, 32, 32, 125, 44, 123, 10, 32, 32, 32, 34, 110, 97, 109, 101, 34, 58, 32, 34, 115, 107, 105, 112, 95, 105, 110, 116, 101, 114, 110, 97, 108, 34, 44, 10, 32, 32, 32, 34, 116, 121, 112, 101, 34, 58, 32, 34, 98, 111, 111, 108, 34, 44, 10, 32, 32, 32, 34, 100, 101, 115, 99, 114, 105, 112, 116, 105, 111, 110, 34, 58, 32, 34, 83, 107, 105, 112, 32, 105, 110, 116, 101, 114, 110, 97, 108, 32, 40, 105, 110, 115, 105, 100, 101, 32, 67, 97, 108, 105, 112, 101, 114, 32, 108, 105, 98, 114, 97, 114, 121, 41, 32, 115, 116, 97, 99, 107, 32, 102, 114, 97, 109, 101, 115, 34, 44, 10, 32, 32, 32, 34, 118, 97, 108, 117, 101, 34, 58, 32, 34, 116, 114, 117, 101, 34, 10, 32, 32, 125, 10, 32, 93, 10, 125, 10], str "callpath", [(str "use_name", str "false"), (str "use_address", str "true"), (str "skip_frames", str "0"), (str "skip_internal", str "true")]⟩

/-- `src/services/cupti/Cupti.cpp`:437-462; `text` is
```
{   "name": "cupti",
    "description": "CUDA API instrumentation",
    "config": [
        {   "name": "callback_domains",
            "description": "List of CUDA callback domains to capture (runtime, driver, resource, sync, nvtx)",
            "type": "string",
            "value": "runtime,sync"
        },
        {   "name": "record_symbol",
            "description": "Record kernel symbol name for CUDA runtime and driver callbacks",
            "type": "bool",
            "value": "false"
        },
        {   "name": "sample_events",
            "description": "List of CUpti events to sample",
            "type": "string"
        },
        {   "name": "sample_event_id",
            "description": "CUpti event ID to sample",
            "type": "uint",
            "value": "0"
        }
    ]
}
```
-/
def spec_cupti : BSpec := ⟨[10, 123, 32, 32, 32, 34, 110, 97, 109, 101, 34, 58, 32, 34, 99, 117, 112, 116, 105, 34, 44, 10, 32, 32, 32, 32, 34, 100, 101, 115, 99, 114, 105, 112, 116, 105, 111, 110, 34, 58, 32, 34, 67, 85, 68, 65, 32, 65, 80, 73, 32, 105, 110, 115, 116, 114, 117, 109, 101, 110, 116, 97, 116, 105, 111, 110, 34, 44, 10, 32, 32, 32, 32, 34, 99, 111, 110, 102, 105, 103, 34, 58, 32, 91, 10, 32, 32, 32, 32, 32, 32, 32, 32, 123, 32, 32, 32, 34, 110, 97, 109, 101, 34, 58, 32, 34, 99, 97, 108, 108, 98, 97, 99, 107, 95, 100, 111, 109, 97, 105, 110, 115, 34, 44, 10, 32, 32, 32, 32, 32, 32, 32, 32, 32, 32, 32, 32, 34, 100, 101, 115, 99, 114, 105, 112, 116, 105, 111, 110, 34, 58, 32, 34, 76, 105, 115, 116, 32, 111, 102, 32, 67, 85, 68, 65, 32, 99, 97, 108, 108, 98, 97, 99, 107, 32, 100, 111, 109, 97, 105, 110, 115, 32, 116, 111, 32, 99, 97, 112, 116, 117, 114, 101, 32, 40, 114, 117, 110, 116, 105, 109, 101, 44, 32, 100, 114, 105, 118, 101, 114, 44, 32, 114, 101, 115, 111, 117, 114, 99, 101, 44, 32, 115, 121, 110, 99, 44, 32, 110, 118, 116, 120, 41, 34, 44, 10, 32, 32, 32, 32, 32, 32, 32, 32, 32, 32, 32, 32, 34, 116, 121, 112, 101, 34, 58, 32, 34, 115, 116, 114, 105, 110, 103, 34, 44, 10, 32, 32, 32, 32, 32, 32, 32, 32, 32, 32, 32, 32, 34, 118, 97, 108, 117, 101, 34, 58, 32, 34, 114, 117, 110, 116, 105, 109, 101, 44, 115, 121, 110, 99, 34, 10, 32, 32, 32, 32, 32, 32, 32, 32, 125, 44, 10, 32, 32, 32, 32, 32, 32, 32, 32, 123, 32, 32, 32, 34, 110, 97, 109, 101, 34, 58, 32, 34, 114, 101, 99, 111, 114, 100, 95, 115, 121, 109, 98, 111, 108, 34, 44, 10, 32, 32, 32, 32, 32, 32, 32, 32, 32, 32, 32, 32, 34, 100, 101, 115, 99, 114, 105, 112, 116, 105, 111, 110, 34, 58, 32, 34, 82, 101, 99, 111, 114, 100, 32, 107, 101, 114, 110, 101, 108, 32, 115, 121, 109, 98, 111, 108, 32, 110, 97, 109, 101, 32, 102, 111, 114, 32, 67, 85, 68, 65, 32, 114, 117, 110, 116, 105, 109, 101, 32, 97, 110, 100, 32, 100, 114, 105, 118, 101, 114, 32, 99, 97, 108, 108, 98, 97, 99, 107, 115, 34, 44, 10, 32, 32, 32, 32, 32, 32, 32, 32, 32, 32, 32, 32, 34, 116, 121, 112, 101, 34, 58, 32, 34, 98, 111, 111, 108, 34, 44, 10, 32, 32, 32, 32, 32, 32, 32, 32, 32, 32, 32, 32, 34, 118, 97, 108, 117, 101, 34, 58, 32, 34, 102, 97, 108, 115, 101, 34, 10, 32, 32, 32, 32, 32, 32, 32, 32, 125, 44, 10, 32, 32, 32, 32, 32, 32, 32, 32, 123, 32, 32, 32, 34, 110, 97, 109, 101, 34, 58, 32, 34, 115, 97, 109, 112, 108, 101, 95, 101, 118, 101, 110, 116, 115, 34, 44, 10, 32, 32, 32, 32, 32, 32, 32, 32, 32, 32, 32, 32, 34, 100, 101, 115, 99, 114, 105, 112, 116, 105, 111, 110, 34, 58, 32, 34, 76, 105, 115, 116, 32, 111, 102, 32, 67, 85, 112, 116, 105, 32, 101, 118, 101, 110, 116, 115, 32, 116, 111, 32, 115, 97, 109, 112, 108, 101, 34, 44, 10, 32, 32, 32, 32, 32, 32, 32, 32, 32, 32, 32, 32, 34, 116, 121, 112, 101, 34, 58, 32, 34, 115, 116, 114, 105, 110, 103, 34, 10, 32, 32, 32, 32, 32, 32, 32, 32, 125, 44, 10, 32, 32, 32, 32, 32, 32, 32, 32, 123, 32, 32, 32, 34, 110, 97, 109, 101, 34, 58, 32, 34, 115, 97, 109, 112, 108, 101, 95, 101, 118, 101, 110, 116, 95, 105, 100, 34, 44, 10, 32, 32, 32, 32, 32, 32, 32, 32, 32, 32, 32, 32, 34, 100, 101, 115, 99, 114, 105, 112, 116, 105, 111, 110, 34, 58, 32, 34, 67, 85, 112, 116, 105, 32, 101, 118, 101, 110, 116, 32, 73, 68, 32, 116, 111, 32, 115, 97, 109, 112, 108, 101, 34, 44, 10, 32, 32, 32, 32, 32, 32, 32, 32, 32, 32, 32, 32, 34, 116, 121, 112, 101, 34, 58, 32, 34, 117, 105, 110, 116, 34, 44, 10, 32, 32, 32, 32, 32, 32, 32, 32, 32, 32, 32, 32, 34, 118, 97, 108, 117, 101, 34, 58, 32, 34, 48, 34, 10, 32, 32, 32, 32, 32, 32, 32, 32, 125, 10, 32, 32, 32, 32, 93, 10, 125, 10], str "cupti", [(str "callback_domains", str "runtime,sync"), (str "record_symbol", str "false"), (str "sample_events", str ""), (str "sample_event_id", str "0")]⟩

/-- `src/services/cupti/CuptiTrace.cpp`:1047-1099; `text` is
```
{   "name": "cuptitrace",
    "description": "CUDA GPU event tracing via the CUpti activity API",
    "config": [
        {   "name": "activities",
            "description":
"The CUpti activities to record (device, correlation, driver, runtime, kernel, memcpy, uvm)",
            "type": "string",
            "value": "correlation,device,runtime,kernel,memcpy"
        },
        {   "name": "correlate_context",
            "description": "Correlate CUpti records with Caliper context",
            "type": "bool",
            "value": "true"
        },
        {   "name": "uvm_transfers",
            "description": "When recording uvm events, record UVM transfers",
            "type": "bool",
            "value": "true"
        },
        {   "name": "uvm_pagefaults",
            "description": "When recording uvm events, record UVM pagefaults",
            "type": "bool",
            "value": "true"
        },
        {   "name": "snapshot_timestamps",
            "description": "Record CUpti timestamps for Caliper host-side snapshots",
            "type": "bool",
            "value": "false"
        },
        {   "name": "snapshot_duration",
            "description": "Record duration of host-side activities using CUpti timestamps",
            "type": "bool",
            "value": "false"
        },
        {   "name": "flush_on_snapshot",
            "description": "Flush CUpti buffers at snapshots instead of regular flush",
            "type": "bool",
            "value": "false"
        },
        {   "name": "flush_trigger",
            "description": "Attributes to trigger a flush when flush_on_snapshot is on",
            "type": "string",
            "value": "cupti.sync"
        },
        {   "name": "info_attributes",
            "description": "Flush info attributes to append to the cupti activity records",
            "type": "string",
            "value": "mpi.rank"
        }
    ]
}
```
-/
def spec_cuptitrace : BSpec := ⟨[10, 123, 32, 32, 32, 34, 110, 97, 109, 101, 34, 58, 32, 34, 99, 117, 112, 116, 105, 116, 114, 97, 99, 101, 34, 44, 10, 32, 32, 32, 32, 34, 100, 101, 115, 99, 114, 105, 112, 116, 105, 111, 110, 34, 58, 32, 34, 67, 85, 68, 65, 32, 71, 80, 85, 32, 101, 118, 101, 110, 116, 32, 116, 114, 97, 99, 105, 110, 103, 32, 118, 105, 97, 32, 116, 104, 101, 32, 67, 85, 112, 116, 105, 32, 97, 99, 116, 105, 118, 105, 116, 121, 32, 65, 80, 73, 34, 44, 10, 32, 32, 32, 32, 34, 99, 111, 110, 102, 105, 103, 34, 58, 32, 91, 10, 32, 32, 32, 32, 32, 32, 32, 32, 123, 32, 32, 32, 34, 110, 97, 109, 101, 34, 58, 32, 34, 97, 99, 116, 105, 118, 105, 116, 105, 101, 115, 34, 44, 10, 32, 32, 32, 32, 32, 32, 32, 32, 32, 32, 32, 32, 34, 100, 101, 115, 99, 114, 105, 112, 116, 105, 111, 110, 34, 58, 10, 34, 84, 104, 101, 32, 67, 85, 112, 116, 105, 32, 97, 99, 116, 105, 118, 105, 116, 105, 101, 115, 32, 116, 111, 32, 114, 101, 99, 111, 114, 100, 32, 40, 100, 101, 118, 105, 99, 101, 44, 32, 99, 111, 114, 114, 101, 108, 97, 116, 105, 111, 110, 44, 32, 100, 114, 105, 118, 101, 114, 44, 32, 114, 117, 110, 116, 105, 109, 101, 44, 32, 107, 101, 114, 110, 101, 108, 44, 32, 109, 101, 109, 99, 112, 121, 44, 32, 117, 118, 109, 41, 34, 44, 10, 32, 32, 32, 32, 32, 32, 32, 32, 32, 32, 32, 32, 34, 116, 121, 112, 101, 34, 58, 32, 34, 115, 116, 114, 105, 110, 103, 34, 44, 10, 32, 32, 32, 32, 32, 32, 32, 32, 32, 32, 32, 32, 34, 118, 97, 108, 117, 101, 34, 58, 32, 34, 99, 111, 114, 114, 101, 108, 97, 116, 105, 111, 110, 44, 100, 101, 118, 105, 99, 101, 44, 114, 117, 110, 116, 105, 109, 101, 44, 107, 101, 114, 110, 101, 108, 44, 109, 101, 109, 99, 112, 121, 34, 10, 32, 32, 32, 32, 32, 32, 32, 32, 125, 44, 10, 32, 32, 32, 32, 32, 32, 32, 32, 123, 32, 32, 32, 34, 110, 97, 109, 101, 34, 58, 32, 34, 99, 111, 114, 114, 101, 108, 97, 116, 101, 95, 99, 111, 110, 116, 101, 120, 116, 34, 44, 10, 32, 32, 32, 32, 32, 32, 32, 32, 32, 32, 32, 32, 34, 100, 101, 115, 99, 114, 105, 112, 116, 105, 111, 110, 34, 58, 32, 34, 67, 111, 114, 114, 101, 108, 97, 116, 101, 32, 67, 85, 112, 116, 105, 32, 114, 101, 99, 111, 114, 100, 115, 32, 119, 105, 116, 104, 32, 67, 97, 108, 105, 112, 101, 114, 32, 99, 111, 110, 116, 101, 120, 116, 34, 44, 10, 32, 32, 32, 32, 32, 32, 32, 32, 32, 32, 32, 32, 34, 116, 121, 112, 101, 34, 58, 32, 34, 98, 111, 111, 108, 34, 44, 10, 32, 32, 32, 32, 32, 32, 32, 32, 32, 32, 32, 32, 34, 118, 97, 108, 117, 101, 34, 58, 32, 34, 116, 114, 117, 101, 34, 10, 32, 32, 32, 32, 32, 32, 32, 32, 125, 44, 10, 32, 32, 32, 32, 32, 32, 32, 32, 123, 32, 32, 32, 34, 110, 97, 109, 101, 34, 58, 32, 34, 117, 118, 109, 95, 116, 114, 97, 110, 115, 102, 101, 114, 115, 34, 44, 10, 32, 32, 32, 32, 32, 32, 32, 32, 32, 32, 32, 32, 34, 100, 101, 115, 99, 114, 105, 112, 116, 105, 111, 110, 34, 58, 32, 34, 87, 104, 101, 110, 32, 114, 101, 99, 111, 114, 100, 105, 110, 103, 32, 117, 118, 109, 32, 101, 118, 101, 110, 116, 115, 44, 32, 114, 101, 99, 111, 114, 100, 32, 85, 86, 77, 32, 116, 114, 97, 110, 115, 102, 101, 114, 115, 34, 44, 10, 32, 32, 32, 32, 32, 32, 32, 32, 32, 32, 32, 32, 34, 116, 121, 112, 101, 34, 58, 32, 34, 98, 111, 111, 108, 34, 44, 10, 32, 32, 32, 32, 32, 32, 32, 32, 32, 32, 32, 32, 34, 118, 97, 108, 117, 101, 34, 58, 32, 34, 116, 114, 117, 101, 34, 10, 32, 32, 32, 32, 32, 32, 32, 32, 125, 44, 10, 32, 32, 32, 32, 32, 32, 32, 32, 123, 32, 32, 32, 34, 110, 97, 109, 101, 34, 58, 32, 34, 117, 118, 109, 95, 112, 97, 103, 101, 102, 97, 117, 108, 116, 115, 34, 44, 10, 32, 32, 32, 32, 32, 32, 32, 32, 32, 32, 32, 32, 34, 100, 101, 115, 99, 114, 105, 112, 116, 105, 111, 110, 34, 58, 32, 34, 87, 104, 101, 110, 32, 114, 101, 99, 111, 114, 100, 105, 110, 103, 32, 117, 118, 109, 32, 101, 118, 101, 110, 116, 115, 44, 32, 114, 101, 99, 111, 114, 100, 32, 85, 86, 77, 32, 112, 97, 103, 101, 102, 97, 117, 108, 116, 115, 34, 44, 10, 32, 32, 32, 32, 32, 32, 32, 32, 32, 32, 32, 32, 34, 116, 121, 112, 101, 34, 58, 32, 34, 98, 111, 111, 108, 34, 44, 10, 32, 32, 32, 32, 32, 32, 32, 32, 32, 32, 32, 32, 34, 118, 97, 108, 117, 101, 34, 58, 32, 34, 116, 114, 117, 101, 34, 10, 32, 32, 32, 32, 32, 32, 32, 32, 125, 44, 10, 32, 32, 32, 32, 32, 32, 32, 32, 123, 32, 32, 32, 34, 110, 97, 109, 101, 34, 58, 32, 34, 115, 110, 97, 112, 115, 104, 111, 116, 95, 116, 105, 109, 101, 115, 116, 97, 109, 112, 115, 34, 44, 10, 32, 32, 32, 32, 32, 32, 32, 32, 32, 32, 32, 32, 34, 100, 101, 115, 99, 114, 105, 112, 116, 105, 111, 110, 34, 58, 32, 34, 82, 101, 99, 111, 114, 100, 32, 67, 85, 112, 116, 105, 32, 116, 105, 109, 101, 115, 116, 97, 109, 112, 115, 32, 102, 111, 114, 32, 67, 97, 108, 105, 112, 101, 114, 32, 104, 111, 115, 116, 45, 115, 105, 100, 101, 32, 115, 110, 97, 112, 115, 104, 111, 116, 115, 34, 44, 10, 32, 32, 32, 32, 32, 32, 32, 32, 32, 32, 32, 32, 34, 116, 121, 112, 101, 34, 58, 32, 34, 98, 111, 111, 108, 34, 44, 10, 32, 32, 32, 32, 32, 32, 32, 32, 32, 32, 32, 32, 34, 118, 97, 108, 117, 101, 34, 58, 32, 34, 102, 97, 108, 115, 101, 34, 10, 32, 32, 32, 32, 32, 32, 32, 32, 125, 44, 10, 32, 32, 32, 32, 32, 32, 32, 32, 123, 32, 32, 32, 34, 110, 97, 109, 101, 34, 58, 32, 34, 115, 110, 97, 112, 115, 104, 111, 116, 95, 100, 117, 114, 97, 116, 105, 111, 110, 34, 44, 10, 32, 32, 32, 32, 32, 32, 32, 32, 32, 32, 32, 32, 34, 100, 101, 115, 99, 114, 105, 112, 116, 105, 111, 110, 34, 58, 32, 34, 82, 101, 99, 111, 114, 100, 32, 100, 117, 114, 97, 116, 105, 111, 110, 32, 111, 102, 32, 104, 111, 115, 116, 45, 115, 105, 100, 101, 32, 97, 99, 116, 105, 118, 105, 116, 105, 101, 115, 32, 117, 115, 105, 110, 103, 32, 67, 85, 112, 116, 105, 32, 116, 105, 109, 101, 115, 116, 97, 109, 112, 115, 34, 44, 10, 32, 32, 32, 32, 32, 32, 32, 32, 32, 32, 32, 32, 34, 116, 121, 112, 101, 34, 58, 32, 34, 98, 111, 111, 108, 34, 44, 10, 32, 32, 32, 32, 32, 32, 32, 32, 32, 32, 32, 32, 34, 118, 97, 108, 117, 101, 34, 58, 32, 34, 102, 97, 108, 115, 101, 34, 10, 32, 32, 32, 32, 32, 32, 32, 32, 125, 44, 10, 32, 32, 32, 32, 32, 32, 32, 32, 123, 32, 32, 32, 34, 110, 97, 109, 101, 34, 58, 32, 34, 102, 108, 117, 115, 104, 95, 111, 110, 95, 115, 110, 97, 112, 115, 104, 111, 116, 34, 44, 10, 32, 32, 32, 32, 32, 32, 32, 32, 32, 32, 32, 32, 34, 100, 101, 115, 99, 114, 105, 112, 116, 105, 111, 110, 34, 58, 32, 34, 70, 108, 117, 115, 104, 32, 67, 85, 112, 116, 105, 32, 98, 117, 102, 102, 101, 114, 115, 32, 97, 116, 32, 115, 110, 97, 112, 115, 104, 111, 116, 115, 32, 105, 110, 115, 116, 101, 97, 100, 32, 111, 102, 32, 114, 101, 103, 117, 108, 97, 114, 32, 102, 108, 117, 115, 104, 34, 44, 10, 32, 32, 32, 32, 32, 32, 32, 32, 32, 32, 32, 32, 34, 116, 121, 112, 101, 34, 58, 32, 34, 98, 111, 111, 108, 34, 44, 10, 32, 32, 32, 32, 32, 32, 32, 32, 32, 32, 32, 32, 34, 118, 97, 108, 117, 101, 34, 58, 32, 34, 102, 97, 108, 115, 101, 34, 10, 32, 32, 32, 32, 32, 32, 32, 32, 125, 44, 10, 32, 32, 32, 32, 32, 32, 32, 32, 123, 32, 32, 32, 34, 110, 97, 109, 101, 34, 58, 32, 34, 102, 108, 117, 115, 104, 95, 116, 114, 105, 103, 103, 101, 114, 34, 44, 10, 32, 32, 32, 32, 32, 32, 32, 32, 32, 32, 32, 32, 34, 100, 101, 115, 99, 114, 105, 112, 116, 105, 111, 110, 34, 58, 32, 34, 65, 116, 116, 114, 105, 98, 117, 116, 101, 115, 32, 116, 111, 32, 116, 114, 105, 103, 103, 101, 114, 32, 97, 32, 102, 108, 117, 115, 104, 32, 119, 104, 101, 110, 32, 102, 108, 117, 115, 104, 95, 111, 110, 95, 115, 110, 97, 112, 115, 104, 111, 116, 32, 105, 115, 32, 111, 110, 34, 44, 10, 32, 32, 32, 32, 32, 32, 32, 32, 32, 32, 32, 32, 34, 116, 121, 112, 101, 34, 58, 32, 34, 115, 116, 114, 105, 110, 103, 34, 44, 10, 32, 32, 32, 32, 32, 32, 32, 32, 32, 32, 32, 32, 34, 118, 97, 108, 117, 101, 34, 58, 32, 34, 99, 117, 112, 116, 105, 46, 115, 121, 110, 99, 34, 10, 32, 32, 32, 32, 32, 32, 32, 32, 125, 44, 10, 32, 32, 32, 32, 32, 32, 32, 32, 123, 32, 32, 32, 34, 110, 97, 109, 101, 34, 58, 32, 34, 105, 110, 102, 111, 95, 97, 116, 116, 114, 105, 98, 117, 116, 101, 115, 34, 44, 10, 32, 32, 32, 32, 32, 32, 32, 32, 32, 32, 32, 32, 34, 100, 101, 115, 99, 114, 105, 112, 116, 105, 111, 110, 34, 58, 32, 34, 70, 108, 117, 115, 104, 32, 105, 110, 102, 111, 32, 97, 116, 116, 114, 105, 98, 117, 116, 101, 115, 32, 116, 111, 32, 97, 112, 112, 101, 110, 100, 32, 116, 111, 32, 116, 104, 101, 32, 99, 117, 112, 116, 105, 32, 97, 99, 116, 105, 118, 105, 116, 121, 32, 114, 101, 99, 111, 114, 100, 115, 34, 44, 10, 32, 32, 32, 32, 32, 32, 32, 32, 32, 32, 32, 32, 34, 116, 121, 112, 101, 34, 58, 32, 34, 115, 116, 114, 105, 110, 103, 34, 44, 10, 32, 32, 32, 32, 32, 32, 32, 32, 32, 32, 32, 32, 34, 118, 97, 108, 117, 101, 34, 58, 32, 34, 109, 112, 105, 46, 114, 97, 110, 107, 34, 10, 32, 32, 32, 32, 32, 32, 32, 32, 125, 10, 32, 32, 32, 32, 93, 10, 125, 10], str "cuptitrace", [(str "activities", str "correlation,device,runtime,kernel,memcpy"), (str "correlate_context", str "true"), (str "uvm_transfers", str "true"), (str "uvm_pagefaults", str "true"), (str "snapshot_timestamps", str "false"), (str "snapshot_duration", str "false"), (str "flush_on_snapshot", str "false"), (str "flush_trigger", str "cupti.sync"), (str "info_attributes", str "mpi.rank")]⟩

/-- `src/services/event/AsyncEventTrigger.cpp`:28-32; `text` is
```
{
 "name": "async_event",
 "description": "Trigger snapshots for asynchronous events"
}
```
-/
def spec_async_event : BSpec := ⟨[10, 123, 10, 32, 34, 110, 97, 109, 101, 34, 58, 32, 34, 97, 115, 121, 110, 99, 95, 101, 118, 101, 110, 116, 34, 44, 10, 32, 34, 100, 101, 115, 99, 114, 105, 112, 116, 105, 111, 110, 34, 58, 32, 34, 84, 114, 105, 103, 103, 101, 114, 32, 115, 110, 97, 112, 115, 104, 111, 116, 115, 32, 102, 111, 114, 32, 97, 115, 121, 110, 99, 104, 114, 111, 110, 111, 117, 115, 32, 101, 118, 101, 110, 116, 115, 34, 10, 125], str "async_event", []⟩

/-- `src/services/event/EventTrigger.cpp`:374-409; `text` is
```
{
 "name"        : "event",
 "description" : "Trigger snapshots for Caliper region begin and end events",
 "config"      :
 [
  {
   "name": "trigger",
   "type": "stringlist",
   "description": "List of attributes that trigger measurements (optional)"
  },{
   "name": "region_level",
   "type": "string",
   "description": "Minimum region level that triggers snapshots",
   "value": "0"
  },{
   "name": "enable_snapshot_info",
   "type": "bool",
   "description": "If true, add begin/end attributes at each event. Increases overhead.",
   "value": "True"
  },{
   "name": "include_regions",
   "type": "string",
   "description": "Region filter to specify regions that will trigger snapshots"
  },{
   "name": "exclude_regions",
   "type": "string",
   "description": "Region filter to specify regions that won't trigger snapshots"
  },{
   "name": "include_branches",
   "type": "string",
   "description": "Region filter to specify a branch"
  }
 ]
}
```
-/
def spec_event : BSpec := ⟨[10, 123, 10, 32, 34, 110, 97, 109, 101, 34, 32, 32, 32, 32, 32, 32, 32, 32, 58, 32, 34, 101, 118, 101, 110, 116, 34, 44, 10, 32, 34, 100, 101, 115, 99, 114, 105, 112, 116, 105, 111, 110, 34, 32, 58, 32, 34, 84, 114, 105, 103, 103, 101, 114, 32, 115, 110, 97, 112, 115, 104, 111, 116, 115, 32, 102, 111, 114, 32, 67, 97, 108, 105, 112, 101, 114, 32, 114, 101, 103, 105, 111, 110, 32, 98, 101, 103, 105, 110, 32, 97, 110, 100, 32, 101, 110, 100, 32, 101, 118, 101, 110, 116, 115, 34, 44, 10, 32, 34, 99, 111, 110, 102, 105, 103, 34, 32, 32, 32, 32, 32, 32, 58, 10, 32, 91, 10, 32, 32, 123, 10, 32, 32, 32, 34, 110, 97, 109, 101, 34, 58, 32, 34, 116, 114, 105, 103, 103, 101, 114, 34, 44, 10, 32, 32, 32, 34, 116, 121, 112, 101, 34, 58, 32, 34, 115, 116, 114, 105, 110, 103, 108, 105, 115, 116, 34, 44, 10, 32, 32, 32, 34, 100, 101, 115, 99, 114, 105, 112, 116, 105, 111, 110, 34, 58, 32, 34, 76, 105, 115, 116, 32, 111, 102, 32, 97, 116, 116, 114, 105, 98, 117, 116, 101, 115, 32, 116, 104, 97, 116, 32, 116, 114, 105, 103, 103, 101, 114, 32, 109, 101, 97, 115, 117, 114, 101, 109, 101, 110, 116, 115, 32, 40, 111, 112, 116, 105, 111, 110, 97, 108, 41, 34, 10, 32, 32, 125, 44, 123, 10, 32, 32, 32, 34, 110, 97, 109, 101, 34, 58, 32, 34, 114, 101, 103, 105, 111, 110, 95, 108, 101, 118, 101, 108, 34, 44, 10, 32, 32, 32, 34, 116, 121, 112, 101, 34, 58, 32, 34, 115, 116, 114, 105, 110, 103, 34, 44, 10, 32, 32, 32, 34, 100, 101, 115, 99, 114, 105, 112, 116, 105, 111, 110, 34, 58, 32, 34, 77, 105, 110, 105, 109, 117, 109, 32, 114, 101, 103, 105, 111, 110, 32, 108, 101, 118, 101, 108, 32, 116, 104, 97, 116, 32, 116, 114, 105, 103, 103, 101, 114, 115, 32, 115, 110, 97, 112, 115, 104, 111, 116, 115, 34, 44, 10, 32, 32, 32, 34, 118, 97, 108, 117, 101, 34, 58, 32, 34, 48, 34, 10, 32, 32, 125, 44, 123, 10, 32, 32, 32, 34, 110, 97, 109, 101, 34, 58, 32, 34, 101, 110, 97, 98, 108, 101, 95, 115, 110, 97, 112, 115, 104, 111, 116, 95, 105, 110, 102, 111, 34, 44, 10, 32, 32, 32, 34, 116, 121, 112, 101, 34, 58, 32, 34, 98, 111, 111, 108, 34, 44, 10, 32, 32, 32, 34, 100, 101, 115, 99, 114, 105, 112, 116, 105, 111, 110, 34, 58, 32, 34, 73, 102, 32, 116, 114, 117, 101, 44, 32, 97, 100, 100, 32, 98, 101, 103, 105, 110, 47, 101, 110, 100, 32, 97, 116, 116, 114, 105, 98, 117, 116, 101, 115, 32, 97, 116, 32, 101, 97, 99, 104, 32, 101, 118, 101, 110, 116, 46, 32, 73, 110, 99, 114, 101, 97, 115, 101, 115, 32, 111, 118, 101, 114, 104, 101, 97, 100, 46, 34, 44, 10, 32, 32, 32, 34, 118, 97, 108, 117, 101, 34, 58, 32, 34, 84, 114, 117, 101, 34, 10, 32, 32, 125, 44, 123, 10, 32, 32, 32, 34, 110, 97, 109, 101, 34, 58, 32, 34, 105, 110, 99, 108, 117, 100, 101, 95, 114, 101, 103, 105, 111, 110, 115, 34, 44, 10, 32, 32, 32, 34, 116, 121, 112, 101, 34, 58, 32, 34, 115, 116, 114, 105, 110, 103, 34, 44, 10, 32, 32, 32, 34, 100, 101, 115, 99, 114, 105, 112, 116, 105, 111, 110, 34, 58, 32, 34, 82, 101, 103, 105, 111, 110, 32, 102, 105, 108, 116, 101, 114, 32, 116, 111, 32, 115, 112, 101, 99, 105, 102, 121, 32, 114, 101, 103, 105, 111, 110, 115, 32, 116, 104, 97, 116, 32, 119, 105, 108, 108, 32, 116, 114, 105, 103, 103, 101, 114, 32, 115, 110, 97, 112, 115, 104, 111, 116, 115, 34, 10, 32, 32, 125, 44, 123, 10, 32, 32, 32, 34, 110, 97, 109, 101, 34, 58, 32, 34, 101, 120, 99, 108, 117, 100, 101, 95, 114, 101, 103, 105, 111, 110, 115, 34, 44, 10, 32, 32, 32, 34, 116, 121, 112, 101, 34, 58, 32, 34, 115, 116, 114, 105, 110, 103, 34, 44, 10, 32, 32, 32, 34, 100, 101, 115, 99, 114, 105, 112, 116, 105, 111, 110, 34, 58, 32, 34, 82, 101, 103, 105, 111, 110, 32, 102, 105, 108, 116, 101, 114, 32, 116, 111, 32, 115, 112, 101, 99, 105, 102, 121, 32, 114, 101, 103, 105, 111, 110, 115, 32, 116, 104, 97, 116, 32, 119, 111, 110, 39, 116, 32, 116, 114, 105, 103, 103, 101, 114, 32, 115, 110, 97, 112, 115, 104, 111, 116, 115, 34, 10, 32, 32, 125, 44, 123, 10, 32, 32, 32, 34, 110, 97, 109, 101, 34, 58, 32, 34, 105, 110, 99, 108, 117, 100, 101, 95, 98, 114, 97, 110, 99, 104, 101, 115, 34, 44, 10, 32, 32, 32, 34, 116, 121, 112, 101, 34, 58, 32, 34, 115, 116, 114, 105, 110, 103, 34, 44, 10, 32, 32, 32, 34, 100, 101, 115, 99, 114, 105, 112, 116, 105, 111, 110, 34, 58, 32, 34, 82, 101, 103, 105, 111, 110, 32, 102, 105, 108, 116, 101, 114, 32, 116, 111, 32, 115, 112, 101, 99, 105, 102, 121, 32, 97, 32, 98, 114, 97, 110, 99, 104, 34, 10, 32, 32, 125, 10, 32, 93, 10, 125, 10], str "event", [(str "trigger", str ""), (str "region_level", str "0"), (str "enable_snapshot_info", str "True"), (str "include_regions", str ""), (str "exclude_regions", str ""), (str "include_branches", str "")]⟩

/-- `src/services/ldms/LdmsForwarder.cpp`:267-275; `text` is
```
{
 "name"        : "ldms",
 "description" : "Forward Caliper regions to LDMS (prototype)",
 "config"      :
 [
 ]
}
```
-/
def spec_ldms : BSpec := ⟨[10, 123, 10, 32, 34, 110, 97, 109, 101, 34, 32, 32, 32, 32, 32, 32, 32, 32, 58, 32, 34, 108, 100, 109, 115, 34, 44, 10, 32, 34, 100, 101, 115, 99, 114, 105, 112, 116, 105, 111, 110, 34, 32, 58, 32, 34, 70, 111, 114, 119, 97, 114, 100, 32, 67, 97, 108, 105, 112, 101, 114, 32, 114, 101, 103, 105, 111, 110, 115, 32, 116, 111, 32, 76, 68, 77, 83, 32, 40, 112, 114, 111, 116, 111, 116, 121, 112, 101, 41, 34, 44, 10, 32, 34, 99, 111, 110, 102, 105, 103, 34, 32, 32, 32, 32, 32, 32, 58, 10, 32, 91, 10, 32, 93, 10, 125, 10], str "ldms", []⟩

/-- `src/services/memusage/MemStatService.cpp`:118-123; `text` is
```
{
    "name"        : "memstat",
    "description" : "Record process memory info from /proc/self/statm"
}
```
-/
def spec_memstat : BSpec := ⟨[10, 123, 10, 32, 32, 32, 32, 34, 110, 97, 109, 101, 34, 32, 32, 32, 32, 32, 32, 32, 32, 58, 32, 34, 109, 101, 109, 115, 116, 97, 116, 34, 44, 10, 32, 32, 32, 32, 34, 100, 101, 115, 99, 114, 105, 112, 116, 105, 111, 110, 34, 32, 58, 32, 34, 82, 101, 99, 111, 114, 100, 32, 112, 114, 111, 99, 101, 115, 115, 32, 109, 101, 109, 111, 114, 121, 32, 105, 110, 102, 111, 32, 102, 114, 111, 109, 32, 47, 112, 114, 111, 99, 47, 115, 101, 108, 102, 47, 115, 116, 97, 116, 109, 34, 10, 125, 10], str "memstat", []⟩

/-- `src/services/monitor/LoopMonitor.cpp`:169-191; `text` is
```
{
"name"        : "loop_monitor",
"description" : "Trigger snapshots on loop iterations",
"config"      :
[
 {
  "name": "iteration_interval",
  "type": "int",
  "description": "Trigger snapshots every N iterations",
  "value": "0"
 },{
  "name": "time_interval",
  "description": "Trigger snapshots every t seconds",
  "type": "double",
  "value": "0.0"
 },{
  "name": "target_loops",
  "description": "List of loops to instrument",
  "type": "string"
 }
]}
```
-/
def spec_loop_monitor : BSpec := ⟨[10, 123, 10, 34, 110, 97, 109, 101, 34, 32, 32, 32, 32, 32, 32, 32, 32, 58, 32, 34, 108, 111, 111, 112, 95, 109, 111, 110, 105, 116, 111, 114, 34, 44, 10, 34, 100, 101, 115, 99, 114, 105, 112, 116, 105, 111, 110, 34, 32, 58, 32, 34, 84, 114, 105, 103, 103, 101, 114, 32, 115, 110, 97, 112, 115, 104, 111, 116, 115, 32, 111, 110, 32, 108, 111, 111, 112, 32, 105, 116, 101, 114, 97, 116, 105, 111, 110, 115, 34, 44, 10, 34, 99, 111, 110, 102, 105, 103, 34, 32, 32, 32, 32, 32, 32, 58, 10, 91, 10, 32, 123, 10, 32, 32, 34, 110, 97, 109, 101, 34, 58, 32, 34, 105, 116, 101, 114, 97, 116, 105, 111, 110, 95, 105, 110, 116, 101, 114, 118, 97, 108, 34, 44, 10, 32, 32, 34, 116, 121, 112, 101, 34, 58, 32, 34, 105, 110, 116, 34, 44, 10, 32, 32, 34, 100, 101, 115, 99, 114, 105, 112, 116, 105, 111, 110, 34, 58, 32, 34, 84, 114, 105, 103, 103, 101, 114, 32, 115, 110, 97, 112, 115, 104, 111, 116, 115, 32, 101, 118, 101, 114, 121, 32, 78, 32, 105, 116, 101, 114, 97, 116, 105, 111, 110, 115, 34, 44, 10, 32, 32, 34, 118, 97, 108, 117, 101, 34, 58, 32, 34, 48, 34, 10, 32, 125, 44, 123, 10, 32, 32, 34, 110, 97, 109, 101, 34, 58, 32, 34, 116, 105, 109, 101, 95, 105, 110, 116, 101, 114, 118, 97, 108, 34, 44, 10, 32, 32, 34, 100, 101, 115, 99, 114, 105, 112, 116, 105, 111, 110, 34, 58, 32, 34, 84, 114, 105, 103, 103, 101, 114, 32, 115, 110, 97, 112, 115, 104, 111, 116, 115, 32, 101, 118, 101, 114, 121, 32, 116, 32, 115, 101, 99, 111, 110, 100, 115, 34, 44, 10, 32, 32, 34, 116, 121, 112, 101, 34, 58, 32, 34, 100, 111, 117, 98, 108, 101, 34, 44, 10, 32, 32, 34, 118, 97, 108, 117, 101, 34, 58, 32, 34, 48, 46, 48, 34, 10, 32, 125, 44, 123, 10, 32, 32, 34, 110, 97, 109, 101, 34, 58, 32, 34, 116, 97, 114, 103, 101, 116, 95, 108, 111, 111, 112, 115, 34, 44, 10, 32, 32, 34, 100, 101, 115, 99, 114, 105, 112, 116, 105, 111, 110, 34, 58, 32, 34, 76, 105, 115, 116, 32, 111, 102, 32, 108, 111, 111, 112, 115, 32, 116, 111, 32, 105, 110, 115, 116, 114, 117, 109, 101, 110, 116, 34, 44, 10, 32, 32, 34, 116, 121, 112, 101, 34, 58, 32, 34, 115, 116, 114, 105, 110, 103, 34, 10, 32, 125, 10, 93, 125, 10], str "loop_monitor", [(str "iteration_interval", str "0"), (str "time_interval", str "0.0"), (str "target_loops", str "")]⟩

/-- `src/services/monitor/RegionMonitor.cpp`:151-162; `text` is
```
{   "name": "region_monitor",
    "description": "Trigger snapshots for long-running regions",
    "config": [
        {   "name"        : "time_interval",
            "description" : "Minimum length in seconds for regions to measure",
            "type"        : "double",
            "value"       : "0.01"
        }
    ]
}
```
-/
def spec_region_monitor : BSpec := ⟨[10, 123, 32, 32, 32, 34, 110, 97, 109, 101, 34, 58, 32, 34, 114, 101, 103, 105, 111, 110, 95, 109, 111, 110, 105, 116, 111, 114, 34, 44, 10, 32, 32, 32, 32, 34, 100, 101, 115, 99, 114, 105, 112, 116, 105, 111, 110, 34, 58, 32, 34, 84, 114, 105, 103, 103, 101, 114, 32, 115, 110, 97, 112, 115, 104, 111, 116, 115, 32, 102, 111, 114, 32, 108, 111, 110, 103, 45, 114, 117, 110, 110, 105, 110, 103, 32, 114, 101, 103, 105, 111, 110, 115, 34, 44, 10, 32, 32, 32, 32, 34, 99, 111, 110, 102, 105, 103, 34, 58, 32, 91, 10, 32, 32, 32, 32, 32, 32, 32, 32, 123, 32, 32, 32, 34, 110, 97, 109, 101, 34, 32, 32, 32, 32, 32, 32, 32, 32, 58, 32, 34, 116, 105, 109, 101, 95, 105, 110, 116, 101, 114, 118, 97, 108, 34, 44, 10, 32, 32, 32, 32, 32, 32, 32, 32, 32, 32, 32, 32, 34, 100, 101, 115, 99, 114, 105, 112, 116, 105, 111, 110, 34, 32, 58, 32, 34, 77, 105, 110, 105, 109, 117, 109, 32, 108, 101, 110, 103, 116, 104, 32, 105, 110, 32, 115, 101, 99, 111, 110, 100, 115, 32, 102, 111, 114, 32, 114, 101, 103, 105, 111, 110, 115, 32, 116, 111, 32, 109, 101, 97, 115, 117, 114, 101, 34, 44, 10, 32, 32, 32, 32, 32, 32, 32, 32, 32, 32, 32, 32, 34, 116, 121, 112, 101, 34, 32, 32, 32, 32, 32, 32, 32, 32, 58, 32, 34, 100, 111, 117, 98, 108, 101, 34, 44, 10, 32, 32, 32, 32, 32, 32, 32, 32, 32, 32, 32, 32, 34, 118, 97, 108, 117, 101, 34, 32, 32, 32, 32, 32, 32, 32, 58, 32, 34, 48, 46, 48, 49, 34, 10, 32, 32, 32, 32, 32, 32, 32, 32, 125, 10, 32, 32, 32, 32, 93, 10, 125, 10], str "region_monitor", [(str "time_interval", str "0.01")]⟩

/-- `src/services/monitor/Timeseries.cpp`:162-174; `text` is
```
{
 "name"        : "timeseries",
 "description" : "Run a sub-profile for time series profiling",
 "config"      :
 [
  { "name"        : "profile_options",
    "type"        : "string",
    "description" : "Extra config options for the iteration sub-profiles"
  }
 ]
}
```
-/
def spec_timeseries : BSpec := ⟨[10, 123, 10, 32, 34, 110, 97, 109, 101, 34, 32, 32, 32, 32, 32, 32, 32, 32, 58, 32, 34, 116, 105, 109, 101, 115, 101, 114, 105, 101, 115, 34, 44, 10, 32, 34, 100, 101, 115, 99, 114, 105, 112, 116, 105, 111, 110, 34, 32, 58, 32, 34, 82, 117, 110, 32, 97, 32, 115, 117, 98, 45, 112, 114, 111, 102, 105, 108, 101, 32, 102, 111, 114, 32, 116, 105, 109, 101, 32, 115, 101, 114, 105, 101, 115, 32, 112, 114, 111, 102, 105, 108, 105, 110, 103, 34, 44, 10, 32, 34, 99, 111, 110, 102, 105, 103, 34, 32, 32, 32, 32, 32, 32, 58, 10, 32, 91, 10, 32, 32, 123, 32, 34, 110, 97, 109, 101, 34, 32, 32, 32, 32, 32, 32, 32, 32, 58, 32, 34, 112, 114, 111, 102, 105, 108, 101, 95, 111, 112, 116, 105, 111, 110, 115, 34, 44, 10, 32, 32, 32, 32, 34, 116, 121, 112, 101, 34, 32, 32, 32, 32, 32, 32, 32, 32, 58, 32, 34, 115, 116, 114, 105, 110, 103, 34, 44, 10, 32, 32, 32, 32, 34, 100, 101, 115, 99, 114, 105, 112, 116, 105, 111, 110, 34, 32, 58, 32, 34, 69, 120, 116, 114, 97, 32, 99, 111, 110, 102, 105, 103, 32, 111, 112, 116, 105, 111, 110, 115, 32, 102, 111, 114, 32, 116, 104, 101, 32, 105, 116, 101, 114, 97, 116, 105, 111, 110, 32, 115, 117, 98, 45, 112, 114, 111, 102, 105, 108, 101, 115, 34, 10, 32, 32, 125, 10, 32, 93, 10, 125, 10], str "timeseries", [(str "profile_options", str "")]⟩

/-- `src/services/mpireport/MpiReport.cpp`:150-181; `text` is
```
{
"name": "mpireport",
"description": "Aggregate data across MPI ranks and write output using CalQL query",
"config":
[
 {
  "name": "filename",
  "description": "File name for report stream",
  "type": "string",
  "value": "stdout"
 },{
  "name": "append",
  "description": "Append to file instead of overwriting",
  "type": "bool",
  "value": "false"
 },{
  "name": "config",
  "description": "CalQL query for cross-process aggregation and formatting",
  "type": "string"
 },{
  "name": "local_config",
  "description": "CalQL query for process-local aggregation step",
  "type": "string"
 },{
  "name": "write_on_finalize",
  "description": "Write output at MPI_Finalize",
  "type": "bool",
  "value": "true"
 }
]}
```
-/
def spec_mpireport : BSpec := ⟨[10, 123, 10, 34, 110, 97, 109, 101, 34, 58, 32, 34, 109, 112, 105, 114, 101, 112, 111, 114, 116, 34, 44, 10, 34, 100, 101, 115, 99, 114, 105, 112, 116, 105, 111, 110, 34, 58, 32, 34, 65, 103, 103, 114, 101, 103, 97, 116, 101, 32, 100, 97, 116, 97, 32, 97, 99, 114, 111, 115, 115, 32, 77, 80, 73, 32, 114, 97, 110, 107, 115, 32, 97, 110, 100, 32, 119, 114, 105, 116, 101, 32, 111, 117, 116, 112, 117, 116, 32, 117, 115, 105, 110, 103, 32, 67, 97, 108, 81, 76, 32, 113, 117, 101, 114, 121, 34, 44, 10, 34, 99, 111, 110, 102, 105, 103, 34, 58, 10, 91, 10, 32, 123, 10, 32, 32, 34, 110, 97, 109, 101, 34, 58, 32, 34, 102, 105, 108, 101, 110, 97, 109, 101, 34, 44, 10, 32, 32, 34, 100, 101, 115, 99, 114, 105, 112, 116, 105, 111, 110, 34, 58, 32, 34, 70, 105, 108, 101, 32, 110, 97, 109, 101, 32, 102, 111, 114, 32, 114, 101, 112, 111, 114, 116, 32, 115, 116, 114, 101, 97, 109, 34, 44, 10, 32, 32, 34, 116, 121, 112, 101, 34, 58, 32, 34, 115, 116, 114, 105, 110, 103, 34, 44, 10, 32, 32, 34, 118, 97, 108, 117, 101, 34, 58, 32, 34, 115, 116, 100, 111, 117, 116, 34, 10, 32, 125, 44, 123, 10, 32, 32, 34, 110, 97, 109, 101, 34, 58, 32, 34, 97, 112, 112, 101, 110, 100, 34, 44, 10, 32, 32, 34, 100, 101, 115, 99, 114, 105, 112, 116, 105, 111, 110, 34, 58, 32, 34, 65, 112, 112, 101, 110, 100, 32, 116, 111, 32, 102, 105, 108, 101, 32, 105, 110, 115, 116, 101, 97, 100, 32, 111, 102, 32, 111, 118, 101, 114, 119, 114, 105, 116, 105, 110, 103, 34, 44, 10, 32, 32, 34, 116, 121, 112, 101, 34, 58, 32, 34, 98, 111, 111, 108, 34, 44, 10, 32, 32, 34, 118, 97, 108, 117, 101, 34, 58, 32, 34, 102, 97, 108, 115, 101, 34, 10, 32, 125, 44, 123, 10, 32, 32, 34, 110, 97, 109, 101, 34, 58, 32, 34, 99, 111, 110, 102, 105, 103, 34, 44, 10, 32, 32, 34, 100, 101, 115, 99, 114, 105, 112, 116, 105, 111, 110, 34, 58, 32, 34, 67, 97, 108, 81, 76, 32, 113, 117, 101, 114, 121, 32, 102, 111, 114, 32, 99, 114, 111, 115, 115, 45, 112, 114, 111, 99, 101, 115, 115, 32, 97, 103, 103, 114, 101, 103, 97, 116, 105, 111, 110, 32, 97, 110, 100, 32, 102, 111, 114, 109, 97, 116, 116, 105, 110, 103, 34, 44, 10, 32, 32, 34, 116, 121, 112, 101, 34, 58, 32, 34, 115, 116, 114, 105, 110, 103, 34, 10, 32, 125, 44, 123, 10, 32, 32, 34, 110, 97, 109, 101, 34, 58, 32, 34, 108, 111, 99, 97, 108, 95, 99, 111, 110, 102, 105, 103, 34, 44, 10, 32, 32, 34, 100, 101, 115, 99, 114, 105, 112, 116, 105, 111, 110, 34, 58, 32, 34, 67, 97, 108, 81, 76, 32, 113, 117, 101, 114, 121, 32, 102, 111, 114, 32, 112, 114, 111, 99, 101, 115, 115, 45, 108, 111, 99, 97, 108, 32, 97, 103, 103, 114, 101, 103, 97, 116, 105, 111, 110, 32, 115, 116, 101, 112, 34, 44, 10, 32, 32, 34, 116, 121, 112, 101, 34, 58, 32, 34, 115, 116, 114, 105, 110, 103, 34, 10, 32, 125, 44, 123, 10, 32, 32, 34, 110, 97, 109, 101, 34, 58, 32, 34, 119, 114, 105, 116, 101, 95, 111, 110, 95, 102, 105, 110, 97, 108, 105, 122, 101, 34, 44, 10, 32, 32, 34, 100, 101, 115, 99, 114, 105, 112, 116, 105, 111, 110, 34, 58, 32, 34, 87, 114, 105, 116, 101, 32, 111, 117, 116, 112, 117, 116, 32, 97, 116, 32, 77, 80, 73, 95, 70, 105, 110, 97, 108, 105, 122, 101, 34, 44, 10, 32, 32, 34, 116, 121, 112, 101, 34, 58, 32, 34, 98, 111, 111, 108, 34, 44, 10, 32, 32, 34, 118, 97, 108, 117, 101, 34, 58, 32, 34, 116, 114, 117, 101, 34, 10, 32, 125, 10, 93, 125, 10], str "mpireport", [(str "filename", str "stdout"), (str "append", str "false"), (str "config", str ""), (str "local_config", str ""), (str "write_on_finalize", str "true")]⟩

/-- `src/services/mpiwrap/MpiWrap.cpp`:30-56; `text` is
```
{   
 "name": "mpi",
 "description": "MPI function wrapping and message tracing",
 "config": 
 [
  { "name": "blacklist",
    "description": "List of MPI functions to filter",
    "type": "string"
  },
  { "name": "whitelist",
    "description": "List of MPI functions to instrument",
    "type": "string"
  },
  { "name": "msg_tracing",
    "description": "Enable message tracing",
    "type": "bool",
    "value": "false"
  },
  { "name": "msg_pattern",
    "description": "Enable message pattern analysis",
    "type": "bool",
    "value": "false"
  }
 ]
}
```
-/
def spec_mpi : BSpec := ⟨[10, 123, 32, 32, 32, 10, 32, 34, 110, 97, 109, 101, 34, 58, 32, 34, 109, 112, 105, 34, 44, 10, 32, 34, 100, 101, 115, 99, 114, 105, 112, 116, 105, 111, 110, 34, 58, 32, 34, 77, 80, 73, 32, 102, 117, 110, 99, 116, 105, 111, 110, 32, 119, 114, 97, 112, 112, 105, 110, 103, 32, 97, 110, 100, 32, 109, 101, 115, 115, 97, 103, 101, 32, 116, 114, 97, 99, 105, 110, 103, 34, 44, 10, 32, 34, 99, 111, 110, 102, 105, 103, 34, 58, 32, 10, 32, 91, 10, 32, 32, 123, 32, 34, 110, 97, 109, 101, 34, 58, 32, 34, 98, 108, 97, 99, 107, 108, 105, 115, 116, 34, 44, 10, 32, 32, 32, 32, 34, 100, 101, 115, 99, 114, 105, 112, 116, 105, 111, 110, 34, 58, 32, 34, 76, 105, 115, 116, 32, 111, 102, 32, 77, 80, 73, 32, 102, 117, 110, 99, 116, 105, 111, 110, 115, 32, 116, 111, 32, 102, 105, 108, 116, 101, 114, 34, 44, 10, 32, 32, 32, 32, 34, 116, 121, 112, 101, 34, 58, 32, 34, 115, 116, 114, 105, 110, 103, 34, 10, 32, 32, 125, 44, 10, 32, 32, 123, 32, 34, 110, 97, 109, 101, 34, 58, 32, 34, 119, 104, 105, 116, 101, 108, 105, 115, 116, 34, 44, 10, 32, 32, 32, 32, 34, 100, 101, 115, 99, 114, 105, 112, 116, 105, 111, 110, 34, 58, 32, 34, 76, 105, 115, 116, 32, 111, 102, 32, 77, 80, 73, 32, 102, 117, 110, 99, 116, 105, 111, 110, 115, 32, 116, 111, 32, 105, 110, 115, 116, 114, 117, 109, 101, 110, 116, 34, 44, 10, 32, 32, 32, 32, 34, 116, 121, 112, 101, 34, 58, 32, 34, 115, 116, 114, 105, 110, 103, 34, 10, 32, 32, 125, 44, 10, 32, 32, 123, 32, 34, 110, 97, 109, 101, 34, 58, 32, 34, 109, 115, 103, 95, 116, 114, 97, 99, 105, 110, 103, 34, 44, 10, 32, 32, 32, 32, 34, 100, 101, 115, 99, 114, 105, 112, 116, 105, 111, 110, 34, 58, 32, 34, 69, 110, 97, 98, 108, 101, 32, 109, 101, 115, 115, 97, 103, 101, 32, 116, 114, 97, 99, 105, 110, 103, 34, 44, 10, 32, 32, 32, 32, 34, 116, 121, 112, 101, 34, 58, 32, 34, 98, 111, 111, 108, 34, 44, 10, 32, 32, 32, 32, 34, 118, 97, 108, 117, 101, 34, 58, 32, 34, 102, 97, 108, 115, 101, 34, 10, 32, 32, 125, 44, 10, 32, 32, 123, 32, 34, 110, 97, 109, 101, 34, 58, 32, 34, 109, 115, 103, 95, 112, 97, 116, 116, 101, 114, 110, 34, 44, 10, 32, 32, 32, 32, 34, 100, 101, 115, 99, 114, 105, 112, 116, 105, 111, 110, 34, 58, 32, 34, 69, 110, 97, 98, 108, 101, 32, 109, 101, 115, 115, 97, 103, 101, 32, 112, 97, 116, 116, 101, 114, 110, 32, 97, 110, 97, 108, 121, 115, 105, 115, 34, 44, 10, 32, 32, 32, 32, 34, 116, 121, 112, 101, 34, 58, 32, 34, 98, 111, 111, 108, 34, 44, 10, 32, 32, 32, 32, 34, 118, 97, 108, 117, 101, 34, 58, 32, 34, 102, 97, 108, 115, 101, 34, 10, 32, 32, 125, 10, 32, 93, 10, 125, 10], str "mpi", [(str "blacklist", str ""), (str "whitelist", str ""), (str "msg_tracing", str "false"), (str "msg_pattern", str "false")]⟩

/-- `src/services/papi/Papi.cpp`:525-544; `text` is
```
{
"name": "papi",
"description": "Record PAPI counters",
"config":
[
 {
  "name": "counters",
  "description": "List of PAPI events to record",
  "type": "string"
 },
 {
  "name": "enable_multiplexing",
  "description": "Enable multiplexing",
  "type": "bool",
  "value": "false"
 }
]
}
```
-/
def spec_papi : BSpec := ⟨[10, 123, 10, 34, 110, 97, 109, 101, 34, 58, 32, 34, 112, 97, 112, 105, 34, 44, 10, 34, 100, 101, 115, 99, 114, 105, 112, 116, 105, 111, 110, 34, 58, 32, 34, 82, 101, 99, 111, 114, 100, 32, 80, 65, 80, 73, 32, 99, 111, 117, 110, 116, 101, 114, 115, 34, 44, 10, 34, 99, 111, 110, 102, 105, 103, 34, 58, 10, 91, 10, 32, 123, 10, 32, 32, 34, 110, 97, 109, 101, 34, 58, 32, 34, 99, 111, 117, 110, 116, 101, 114, 115, 34, 44, 10, 32, 32, 34, 100, 101, 115, 99, 114, 105, 112, 116, 105, 111, 110, 34, 58, 32, 34, 76, 105, 115, 116, 32, 111, 102, 32, 80, 65, 80, 73, 32, 101, 118, 101, 110, 116, 115, 32, 116, 111, 32, 114, 101, 99, 111, 114, 100, 34, 44, 10, 32, 32, 34, 116, 121, 112, 101, 34, 58, 32, 34, 115, 116, 114, 105, 110, 103, 34, 10, 32, 125, 44, 10, 32, 123, 10, 32, 32, 34, 110, 97, 109, 101, 34, 58, 32, 34, 101, 110, 97, 98, 108, 101, 95, 109, 117, 108, 116, 105, 112, 108, 101, 120, 105, 110, 103, 34, 44, 10, 32, 32, 34, 100, 101, 115, 99, 114, 105, 112, 116, 105, 111, 110, 34, 58, 32, 34, 69, 110, 97, 98, 108, 101, 32, 109, 117, 108, 116, 105, 112, 108, 101, 120, 105, 110, 103, 34, 44, 10, 32, 32, 34, 116, 121, 112, 101, 34, 58, 32, 34, 98, 111, 111, 108, 34, 44, 10, 32, 32, 34, 118, 97, 108, 117, 101, 34, 58, 32, 34, 102, 97, 108, 115, 101, 34, 10, 32, 125, 10, 93, 10, 125, 10], str "papi", [(str "counters", str ""), (str "enable_multiplexing", str "false")]⟩

/-- `src/services/perf/PerfTopdown.cpp`:489-502; `text` is
```
{
 "name": "perf_topdown",
 "description": "Capture top-down metrics for Intel Sapphire Rapids or later CPUs via perf",
 "config":
 [
  { "name": "level",
    "description": "Topdown level ('top' or 'all')",
    "type": "string",
    "value": "top"
  }
 ]
}
```
-/
def spec_perf_topdown : BSpec := ⟨[10, 123, 10, 32, 34, 110, 97, 109, 101, 34, 58, 32, 34, 112, 101, 114, 102, 95, 116, 111, 112, 100, 111, 119, 110, 34, 44, 10, 32, 34, 100, 101, 115, 99, 114, 105, 112, 116, 105, 111, 110, 34, 58, 32, 34, 67, 97, 112, 116, 117, 114, 101, 32, 116, 111, 112, 45, 100, 111, 119, 110, 32, 109, 101, 116, 114, 105, 99, 115, 32, 102, 111, 114, 32, 73, 110, 116, 101, 108, 32, 83, 97, 112, 112, 104, 105, 114, 101, 32, 82, 97, 112, 105, 100, 115, 32, 111, 114, 32, 108, 97, 116, 101, 114, 32, 67, 80, 85, 115, 32, 118, 105, 97, 32, 112, 101, 114, 102, 34, 44, 10, 32, 34, 99, 111, 110, 102, 105, 103, 34, 58, 10, 32, 91, 10, 32, 32, 123, 32, 34, 110, 97, 109, 101, 34, 58, 32, 34, 108, 101, 118, 101, 108, 34, 44, 10, 32, 32, 32, 32, 34, 100, 101, 115, 99, 114, 105, 112, 116, 105, 111, 110, 34, 58, 32, 34, 84, 111, 112, 100, 111, 119, 110, 32, 108, 101, 118, 101, 108, 32, 40, 39, 116, 111, 112, 39, 32, 111, 114, 32, 39, 97, 108, 108, 39, 41, 34, 44, 10, 32, 32, 32, 32, 34, 116, 121, 112, 101, 34, 58, 32, 34, 115, 116, 114, 105, 110, 103, 34, 44, 10, 32, 32, 32, 32, 34, 118, 97, 108, 117, 101, 34, 58, 32, 34, 116, 111, 112, 34, 10, 32, 32, 125, 10, 32, 93, 10, 125, 10], str "perf_topdown", [(str "level", str "top")]⟩

/-- `src/services/recorder/Recorder.cpp`:77-93; `text` is
```
{
"name"        : "recorder",
"description" : "Write records into .cali file",
"config"      :
[
 {
  "name": "filename",
  "type": "string",
  "description": "Stream or file name. If empty, auto-generate file."
 },{
  "name": "directory",
  "type": "string",
  "description": "Directory to write .cali files to."
 }
]}
```
-/
def spec_recorder : BSpec := ⟨[10, 123, 10, 34, 110, 97, 109, 101, 34, 32, 32, 32, 32, 32, 32, 32, 32, 58, 32, 34, 114, 101, 99, 111, 114, 100, 101, 114, 34, 44, 10, 34, 100, 101, 115, 99, 114, 105, 112, 116, 105, 111, 110, 34, 32, 58, 32, 34, 87, 114, 105, 116, 101, 32, 114, 101, 99, 111, 114, 100, 115, 32, 105, 110, 116, 111, 32, 46, 99, 97, 108, 105, 32, 102, 105, 108, 101, 34, 44, 10, 34, 99, 111, 110, 102, 105, 103, 34, 32, 32, 32, 32, 32, 32, 58, 10, 91, 10, 32, 123, 10, 32, 32, 34, 110, 97, 109, 101, 34, 58, 32, 34, 102, 105, 108, 101, 110, 97, 109, 101, 34, 44, 10, 32, 32, 34, 116, 121, 112, 101, 34, 58, 32, 34, 115, 116, 114, 105, 110, 103, 34, 44, 10, 32, 32, 34, 100, 101, 115, 99, 114, 105, 112, 116, 105, 111, 110, 34, 58, 32, 34, 83, 116, 114, 101, 97, 109, 32, 111, 114, 32, 102, 105, 108, 101, 32, 110, 97, 109, 101, 46, 32, 73, 102, 32, 101, 109, 112, 116, 121, 44, 32, 97, 117, 116, 111, 45, 103, 101, 110, 101, 114, 97, 116, 101, 32, 102, 105, 108, 101, 46, 34, 10, 32, 125, 44, 123, 10, 32, 32, 34, 110, 97, 109, 101, 34, 58, 32, 34, 100, 105, 114, 101, 99, 116, 111, 114, 121, 34, 44, 10, 32, 32, 34, 116, 121, 112, 101, 34, 58, 32, 34, 115, 116, 114, 105, 110, 103, 34, 44, 10, 32, 32, 34, 100, 101, 115, 99, 114, 105, 112, 116, 105, 111, 110, 34, 58, 32, 34, 68, 105, 114, 101, 99, 116, 111, 114, 121, 32, 116, 111, 32, 119, 114, 105, 116, 101, 32, 46, 99, 97, 108, 105, 32, 102, 105, 108, 101, 115, 32, 116, 111, 46, 34, 10, 32, 125, 10, 93, 125, 10], str "recorder", [(str "filename", str ""), (str "directory", str "")]⟩

/-- `src/services/report/Report.cpp`:103-125; `text` is
```
{
"name"        : "report",
"description" : "Write output using CalQL query",
"config"      :
[
 {
  "name": "filename",
  "type": "string",
  "description": "File name for report stream",
  "value": "stdout"
 },{
  "name": "append",
  "type": "bool",
  "description": "Append to file instead of overwriting",
  "value": "false"
 },{
  "name": "config",
  "type": "string"
  "description": "CalQL query to generate report",
 }
]}
```
-/
def spec_report : BSpec := ⟨[10, 123, 10, 34, 110, 97, 109, 101, 34, 32, 32, 32, 32, 32, 32, 32, 32, 58, 32, 34, 114, 101, 112, 111, 114, 116, 34, 44, 10, 34, 100, 101, 115, 99, 114, 105, 112, 116, 105, 111, 110, 34, 32, 58, 32, 34, 87, 114, 105, 116, 101, 32, 111, 117, 116, 112, 117, 116, 32, 117, 115, 105, 110, 103, 32, 67, 97, 108, 81, 76, 32, 113, 117, 101, 114, 121, 34, 44, 10, 34, 99, 111, 110, 102, 105, 103, 34, 32, 32, 32, 32, 32, 32, 58, 10, 91, 10, 32, 123, 10, 32, 32, 34, 110, 97, 109, 101, 34, 58, 32, 34, 102, 105, 108, 101, 110, 97, 109, 101, 34, 44, 10, 32, 32, 34, 116, 121, 112, 101, 34, 58, 32, 34, 115, 116, 114, 105, 110, 103, 34, 44, 10, 32, 32, 34, 100, 101, 115, 99, 114, 105, 112, 116, 105, 111, 110, 34, 58, 32, 34, 70, 105, 108, 101, 32, 110, 97, 109, 101, 32, 102, 111, 114, 32, 114, 101, 112, 111, 114, 116, 32, 115, 116, 114, 101, 97, 109, 34, 44, 10, 32, 32, 34, 118, 97, 108, 117, 101, 34, 58, 32, 34, 115, 116, 100, 111, 117, 116, 34, 10, 32, 125, 44, 123, 10, 32, 32, 34, 110, 97, 109, 101, 34, 58, 32, 34, 97, 112, 112, 101, 110, 100, 34, 44, 10, 32, 32, 34, 116, 121, 112, 101, 34, 58, 32, 34, 98, 111, 111, 108, 34, 44, 10, 32, 32, 34, 100, 101, 115, 99, 114, 105, 112, 116, 105, 111, 110, 34, 58, 32, 34, 65, 112, 112, 101, 110, 100, 32, 116, 111, 32, 102, 105, 108, 101, 32, 105, 110, 115, 116, 101, 97, 100, 32, 111, 102, 32, 111, 118, 101, 114, 119, 114, 105, 116, 105, 110, 103, 34, 44, 10, 32, 32, 34, 118, 97, 108, 117, 101, 34, 58, 32, 34, 102, 97, 108, 115, 101, 34, 10, 32, 125, 44, 123, 10, 32, 32, 34, 110, 97, 109, 101, 34, 58, 32, 34, 99, 111, 110, 102, 105, 103, 34, 44, 10, 32, 32, 34, 116, 121, 112, 101, 34, 58, 32, 34, 115, 116, 114, 105, 110, 103, 34, 10, 32, 32, 34, 100, 101, 115, 99, 114, 105, 112, 116, 105, 111, 110, 34, 58, 32, 34, 67, 97, 108, 81, 76, 32, 113, 117, 101, 114, 121, 32, 116, 111, 32, 103, 101, 110, 101, 114, 97, 116, 101, 32, 114, 101, 112, 111, 114, 116, 34, 44, 10, 32, 125, 10, 93, 125, 10], str "report", [(str "filename", str "stdout"), (str "append", str "false"), (str "config", str "")]⟩

/-- `src/services/rocprofiler/RocProfiler.cpp`:851-883; `text` is
```
{
 "name": "rocprofiler",
 "description": "Record ROCm API and GPU activities using rocprofiler-sdk",
 "config":
 [
  { "name": "enable_api_callbacks",
    "type": "bool",
    "description": "Enable HIP API interception callbacks",
    "value": "true"
  },
  { "name": "enable_activity_tracing",
    "type": "bool",
    "description": "Enable ROCm GPU activity tracing",
    "value": "false"
  },
  { "name": "enable_snapshot_timestamps",
    "type": "bool",
    "description": "Record host-side timestamps and durations with rocprofiler",
    "value": "false"
  },
  { "name": "enable_allocation_tracing",
    "type": "bool",
    "description": "Trace HIP memory allocations",
    "value": "false"
  },
  { "name": "counters",
    "type": "string",
    "description": "List of performance counters to collect"
  }
 ]
}
```
-/
def spec_rocprofiler : BSpec := ⟨[10, 123, 10, 32, 34, 110, 97, 109, 101, 34, 58, 32, 34, 114, 111, 99, 112, 114, 111, 102, 105, 108, 101, 114, 34, 44, 10, 32, 34, 100, 101, 115, 99, 114, 105, 112, 116, 105, 111, 110, 34, 58, 32, 34, 82, 101, 99, 111, 114, 100, 32, 82, 79, 67, 109, 32, 65, 80, 73, 32, 97, 110, 100, 32, 71, 80, 85, 32, 97, 99, 116, 105, 118, 105, 116, 105, 101, 115, 32, 117, 115, 105, 110, 103, 32, 114, 111, 99, 112, 114, 111, 102, 105, 108, 101, 114, 45, 115, 100, 107, 34, 44, 10, 32, 34, 99, 111, 110, 102, 105, 103, 34, 58, 10, 32, 91, 10, 32, 32, 123, 32, 34, 110, 97, 109, 101, 34, 58, 32, 34, 101, 110, 97, 98, 108, 101, 95, 97, 112, 105, 95, 99, 97, 108, 108, 98, 97, 99, 107, 115, 34, 44, 10, 32, 32, 32, 32, 34, 116, 121, 112, 101, 34, 58, 32, 34, 98, 111, 111, 108, 34, 44, 10, 32, 32, 32, 32, 34, 100, 101, 115, 99, 114, 105, 112, 116, 105, 111, 110, 34, 58, 32, 34, 69, 110, 97, 98, 108, 101, 32, 72, 73, 80, 32, 65, 80, 73, 32, 105, 110, 116, 101, 114, 99, 101, 112, 116, 105, 111, 110, 32, 99, 97, 108, 108, 98, 97, 99, 107, 115, 34, 44, 10, 32, 32, 32, 32, 34, 118, 97, 108, 117, 101, 34, 58, 32, 34, 116, 114, 117, 101, 34, 10, 32, 32, 125, 44, 10, 32, 32, 123, 32, 34, 110, 97, 109, 101, 34, 58, 32, 34, 101, 110, 97, 98, 108, 101, 95, 97, 99, 116, 105, 118, 105, 116, 121, 95, 116, 114, 97, 99, 105, 110, 103, 34, 44, 10, 32, 32, 32, 32, 34, 116, 121, 112, 101, 34, 58, 32, 34, 98, 111, 111, 108, 34, 44, 10, 32, 32, 32, 32, 34, 100, 101, 115, 99, 114, 105, 112, 116, 105, 111, 110, 34, 58, 32, 34, 69, 110, 97, 98, 108, 101, 32, 82, 79, 67, 109, 32, 71, 80, 85, 32, 97, 99, 116, 105, 118, 105, 116, 121, 32, 116, 114, 97, 99, 105, 110, 103, 34, 44, 10, 32, 32, 32, 32, 34, 118, 97, 108, 117, 101, 34, 58, 32, 34, 102, 97, 108, 115, 101, 34, 10, 32, 32, 125, 44, 10, 32, 32, 123, 32, 34, 110, 97, 109, 101, 34, 58, 32, 34, 101, 110, 97, 98, 108, 101, 95, 115, 110, 97, 112, 115, 104, 111, 116, 95, 116, 105, 109, 101, 115, 116, 97, 109, 112, 115, 34, 44, 10, 32, 32, 32, 32, 34, 116, 121, 112, 101, 34, 58, 32, 34, 98, 111, 111, 108, 34, 44, 10, 32, 32, 32, 32, 34, 100, 101, 115, 99, 114, 105, 112, 116, 105, 111, 110, 34, 58, 32, 34, 82, 101, 99, 111, 114, 100, 32, 104, 111, 115, 116, 45, 115, 105, 100, 101, 32, 116, 105, 109, 101, 115, 116, 97, 109, 112, 115, 32, 97, 110, 100, 32, 100, 117, 114, 97, 116, 105, 111, 110, 115, 32, 119, 105, 116, 104, 32, 114, 111, 99, 112, 114, 111, 102, 105, 108, 101, 114, 34, 44, 10, 32, 32, 32, 32, 34, 118, 97, 108, 117, 101, 34, 58, 32, 34, 102, 97, 108, 115, 101, 34, 10, 32, 32, 125, 44, 10, 32, 32, 123, 32, 34, 110, 97, 109, 101, 34, 58, 32, 34, 101, 110, 97, 98, 108, 101, 95, 97, 108, 108, 111, 99, 97, 116, 105, 111, 110, 95, 116, 114, 97, 99, 105, 110, 103, 34, 44, 10, 32, 32, 32, 32, 34, 116, 121, 112, 101, 34, 58, 32, 34, 98, 111, 111, 108, 34, 44, 10, 32, 32, 32, 32, 34, 100, 101, 115, 99, 114, 105, 112, 116, 105, 111, 110, 34, 58, 32, 34, 84, 114, 97, 99, 101, 32, 72, 73, 80, 32, 109, 101, 109, 111, 114, 121, 32, 97, 108, 108, 111, 99, 97, 116, 105, 111, 110, 115, 34, 44, 10, 32, 32, 32, 32, 34, 118, 97, 108, 117, 101, 34, 58, 32, 34, 102, 97, 108, 115, 101, 34, 10, 32, 32, 125, 44, 10, 32, 32, 123, 32, 34, 110, 97, 109, 101, 34, 58, 32, 34, 99, 111, 117, 110, 116, 101, 114, 115, 34, 44, 10, 32, 32, 32, 32, 34, 116, 121, 112, 101, 34, 58, 32, 34, 115, 116, 114, 105, 110, 103, 34, 44, 10, 32, 32, 32, 32, 34, 100, 101, 115, 99, 114, 105, 112, 116, 105, 111, 110, 34, 58, 32, 34, 76, 105, 115, 116, 32, 111, 102, 32, 112, 101, 114, 102, 111, 114, 109, 97, 110, 99, 101, 32, 99, 111, 117, 110, 116, 101, 114, 115, 32, 116, 111, 32, 99, 111, 108, 108, 101, 99, 116, 34, 10, 32, 32, 125, 10, 32, 93, 10, 125, 10], str "rocprofiler", [(str "enable_api_callbacks", str "true"), (str "enable_activity_tracing", str "false"), (str "enable_snapshot_timestamps", str "false"), (str "enable_allocation_tracing", str "false"), (str "counters", str "")]⟩

/-- `src/services/rocprofiler/RocTX.cpp`:101-106; `text` is
```
{
 "name": "roctx",
 "description": "Forward Caliper regions as RocTX markers"
}
```
-/
def spec_roctx : BSpec := ⟨[10, 123, 10, 32, 34, 110, 97, 109, 101, 34, 58, 32, 34, 114, 111, 99, 116, 120, 34, 44, 10, 32, 34, 100, 101, 115, 99, 114, 105, 112, 116, 105, 111, 110, 34, 58, 32, 34, 70, 111, 114, 119, 97, 114, 100, 32, 67, 97, 108, 105, 112, 101, 114, 32, 114, 101, 103, 105, 111, 110, 115, 32, 97, 115, 32, 82, 111, 99, 84, 88, 32, 109, 97, 114, 107, 101, 114, 115, 34, 10, 125, 10], str "roctx", []⟩

/-- `src/services/sampler/Sampler.cpp`:49-62; `text` is
```
{
"name": "sampler",
"description": "Trigger snapshots via sampling timer",
"config":
[
 {
  "name": "frequency",
  "description": "Sampling frequency in Hz",
  "type": "int",
  "value": "50"
 }
]}
```
-/
def spec_sampler : BSpec := ⟨[10, 123, 10, 34, 110, 97, 109, 101, 34, 58, 32, 34, 115, 97, 109, 112, 108, 101, 114, 34, 44, 10, 34, 100, 101, 115, 99, 114, 105, 112, 116, 105, 111, 110, 34, 58, 32, 34, 84, 114, 105, 103, 103, 101, 114, 32, 115, 110, 97, 112, 115, 104, 111, 116, 115, 32, 118, 105, 97, 32, 115, 97, 109, 112, 108, 105, 110, 103, 32, 116, 105, 109, 101, 114, 34, 44, 10, 34, 99, 111, 110, 102, 105, 103, 34, 58, 10, 91, 10, 32, 123, 10, 32, 32, 34, 110, 97, 109, 101, 34, 58, 32, 34, 102, 114, 101, 113, 117, 101, 110, 99, 121, 34, 44, 10, 32, 32, 34, 100, 101, 115, 99, 114, 105, 112, 116, 105, 111, 110, 34, 58, 32, 34, 83, 97, 109, 112, 108, 105, 110, 103, 32, 102, 114, 101, 113, 117, 101, 110, 99, 121, 32, 105, 110, 32, 72, 122, 34, 44, 10, 32, 32, 34, 116, 121, 112, 101, 34, 58, 32, 34, 105, 110, 116, 34, 44, 10, 32, 32, 34, 118, 97, 108, 117, 101, 34, 58, 32, 34, 53, 48, 34, 10, 32, 125, 10, 93, 125, 10], str "sampler", [(str "frequency", str "50")]⟩

/-- `src/services/symbollookup/SymbolLookup.cpp`:298-335; `text` is
```
{
"name"        : "symbollookup",
"description" : "Perform symbol name lookup for source code address attributes",
"config":
[
 {
  "name": "attributes",
  "description": "List of address attributes for which to perform symbol lookup",
  "type": "string"
 },{
  "name": "lookup_functions",
  "description": "Perform function name lookup",
  "type": "bool",
  "value": "true"
 },{
  "name": "lookup_sourceloc",
  "description": "Perform source location lookup (source file name + line number)",
  "type": "bool",
  "value": "true"
 },{
  "name": "lookup_file",
  "description": "Perform source file name lookup",
  "type": "bool",
  "value": "false"
 },{
  "name": "lookup_line",
  "description": "Perform source line lookup",
  "type": "bool",
  "value": "false"
 },{
  "name": "lookup_module",
  "description": "Perform module lookup",
  "type": "bool",
  "value": "true"
 }
]}
```
-/
def spec_symbollookup : BSpec := ⟨[10, 123, 10, 34, 110, 97, 109, 101, 34, 32, 32, 32, 32, 32, 32, 32, 32, 58, 32, 34, 115, 121, 109, 98, 111, 108, 108, 111, 111, 107, 117, 112, 34, 44, 10, 34, 100, 101, 115, 99, 114, 105, 112, 116, 105, 111, 110, 34, 32, 58, 32, 34, 80, 101, 114, 102, 111, 114, 109, 32, 115, 121, 109, 98, 111, 108, 32, 110, 97, 109, 101, 32, 108, 111, 111, 107, 117, 112, 32, 102, 111, 114, 32, 115, 111, 117, 114, 99, 101, 32, 99, 111, 100, 101, 32, 97, 100, 100, 114, 101, 115, 115, 32, 97, 116, 116, 114, 105, 98, 117, 116, 101, 115, 34, 44, 10, 34, 99, 111, 110, 102, 105, 103, 34, 58, 10, 91, 10, 32, 123, 10, 32, 32, 34, 110, 97, 109, 101, 34, 58, 32, 34, 97, 116, 116, 114, 105, 98, 117, 116, 101, 115, 34, 44, 10, 32, 32, 34, 100, 101, 115, 99, 114, 105, 112, 116, 105, 111, 110, 34, 58, 32, 34, 76, 105, 115, 116, 32, 111, 102, 32, 97, 100, 100, 114, 101, 115, 115, 32, 97, 116, 116, 114, 105, 98, 117, 116, 101, 115, 32, 102, 111, 114, 32, 119, 104, 105, 99, 104, 32, 116, 111, 32, 112, 101, 114, 102, 111, 114, 109, 32, 115, 121, 109, 98, 111, 108, 32, 108, 111, 111, 107, 117, 112, 34, 44, 10, 32, 32, 34, 116, 121, 112, 101, 34, 58, 32, 34, 115, 116, 114, 105, 110, 103, 34, 10, 32, 125, 44, 123, 10, 32, 32, 34, 110, 97, 109, 101, 34, 58, 32, 34, 108, 111, 111, 107, 117, 112, 95, 102, 117, 110, 99, 116, 105, 111, 110, 115, 34, 44, 10, 32, 32, 34, 100, 101, 115, 99, 114, 105, 112, 116, 105, 111, 110, 34, 58, 32, 34, 80, 101, 114, 102, 111, 114, 109, 32, 102, 117, 110, 99, 116, 105, 111, 110, 32, 110, 97, 109, 101, 32, 108, 111, 111, 107, 117, 112, 34, 44, 10, 32, 32, 34, 116, 121, 112, 101, 34, 58, 32, 34, 98, 111, 111, 108, 34, 44, 10, 32, 32, 34, 118, 97, 108, 117, 101, 34, 58, 32, 34, 116, 114, 117, 101, 34, 10, 32, 125, 44, 123, 10, 32, 32, 34, 110, 97, 109, 101, 34, 58, 32, 34, 108, 111, 111, 107, 117, 112, 95, 115, 111, 117, 114, 99, 101, 108, 111, 99, 34, 44, 10, 32, 32, 34, 100, 101, 115, 99, 114, 105, 112, 116, 105, 111, 110, 34, 58, 32, 34, 80, 101, 114, 102, 111, 114, 109, 32, 115, 111, 117, 114, 99, 101, 32, 108, 111, 99, 97, 116, 105, 111, 110, 32, 108, 111, 111, 107, 117, 112, 32, 40, 115, 111, 117, 114, 99, 101, 32, 102, 105, 108, 101, 32, 110, 97, 109, 101, 32, 43, 32, 108, 105, 110, 101, 32, 110, 117, 109, 98, 101, 114, 41, 34, 44, 10, 32, 32, 34, 116, 121, 112, 101, 34, 58, 32, 34, 98, 111, 111, 108, 34, 44, 10, 32, 32, 34, 118, 97, 108, 117, 101, 34, 58, 32, 34, 116, 114, 117, 101, 34, 10, 32, 125, 44, 123, 10, 32, 32, 34, 110, 97, 109, 101, 34, 58, 32, 34, 108, 111, 111, 107, 117, 112, 95, 102, 105, 108, 101, 34, 44, 10, 32, 32, 34, 100, 101, 115, 99, 114, 105, 112, 116, 105, 111, 110, 34, 58, 32, 34, 80, 101, 114, 102, 111, 114, 109, 32, 115, 111, 117, 114, 99, 101, 32, 102, 105, 108, 101, 32, 110, 97, 109, 101, 32, 108, 111, 111, 107, 117, 112, 34, 44, 10, 32, 32, 34, 116, 121, 112, 101, 34, 58, 32, 34, 98, 111, 111, 108, 34, 44, 10, 32, 32, 34, 118, 97, 108, 117, 101, 34, 58, 32, 34, 102, 97, 108, 115, 101, 34, 10, 32, 125, 44, 123, 10, 32, 32, 34, 110, 97, 109, 101, 34, 58, 32, 34, 108, 111, 111, 107, 117, 112, 95, 108, 105, 110, 101, 34, 44, 10, 32, 32, 34, 100, 101, 115, 99, 114, 105, 112, 116, 105, 111, 110, 34, 58, 32, 34, 80, 101, 114, 102, 111, 114, 109, 32, 115, 111, 117, 114, 99, 101, 32, 108, 105, 110, 101, 32, 108, 111, 111, 107, 117, 112, 34, 44, 10, 32, 32, 34, 116, 121, 112, 101, 34, 58, 32, 34, 98, 111, 111, 108, 34, 44, 10, 32, 32, 34, 118, 97, 108, 117, 101, 34, 58, 32, 34, 102, 97, 108, 115, 101, 34, 10, 32, 125, 44, 123, 10, 32, 32, 34, 110, 97, 109, 101, 34, 58, 32, 34, 108, 111, 111, 107, 117, 112, 95, 109, 111, 100, 117, 108, 101, 34, 44, 10, 32, 32, 34, 100, 101, 115, 99, 114, 105, 112, 116, 105, 111, 110, 34, 58, 32, 34, 80, 101, 114, 102, 111, 114, 109, 32, 109, 111, 100, 117, 108, 101, 32, 108, 111, 111, 107, 117, 112, 34, 44, 10, 32, 32, 34, 116, 121, 112, 101, 34, 58, 32, 34, 98, 111, 111, 108, 34, 44, 10, 32, 32, 34, 118, 97, 108, 117, 101, 34, 58, 32, 34, 116, 114, 117, 101, 34, 10, 32, 125, 10, 93, 125, 10], str "symbollookup", [(str "attributes", str ""), (str "lookup_functions", str "true"), (str "lookup_sourceloc", str "true"), (str "lookup_file", str "false"), (str "lookup_line", str "false"), (str "lookup_module", str "true")]⟩

/-- `src/services/templates/MeasurementService.cpp`:238-249; `text` is
```
{   "name": "measurement_template",
    "description": "A Caliper measurement service example",
    "config": [
        {   "name": "names",
            "type": "string",
            "description": "Names of measurements to record, separated by ','",
            "value": "a,b"
        }
    ]
}
```
-/
def spec_measurement_template : BSpec := ⟨[10, 123, 32, 32, 32, 34, 110, 97, 109, 101, 34, 58, 32, 34, 109, 101, 97, 115, 117, 114, 101, 109, 101, 110, 116, 95, 116, 101, 109, 112, 108, 97, 116, 101, 34, 44, 10, 32, 32, 32, 32, 34, 100, 101, 115, 99, 114, 105, 112, 116, 105, 111, 110, 34, 58, 32, 34, 65, 32, 67, 97, 108, 105, 112, 101, 114, 32, 109, 101, 97, 115, 117, 114, 101, 109, 101, 110, 116, 32, 115, 101, 114, 118, 105, 99, 101, 32, 101, 120, 97, 109, 112, 108, 101, 34, 44, 10, 32, 32, 32, 32, 34, 99, 111, 110, 102, 105, 103, 34, 58, 32, 91, 10, 32, 32, 32, 32, 32, 32, 32, 32, 123, 32, 32, 32, 34, 110, 97, 109, 101, 34, 58, 32, 34, 110, 97, 109, 101, 115, 34, 44, 10, 32, 32, 32, 32, 32, 32, 32, 32, 32, 32, 32, 32, 34, 116, 121, 112, 101, 34, 58, 32, 34, 115, 116, 114, 105, 110, 103, 34, 44, 10, 32, 32, 32, 32, 32, 32, 32, 32, 32, 32, 32, 32, 34, 100, 101, 115, 99, 114, 105, 112, 116, 105, 111, 110, 34, 58, 32, 34, 78, 97, 109, 101, 115, 32, 111, 102, 32, 109, 101, 97, 115, 117, 114, 101, 109, 101, 110, 116, 115, 32, 116, 111, 32, 114, 101, 99, 111, 114, 100, 44, 32, 115, 101, 112, 97, 114, 97, 116, 101, 100, 32, 98, 121, 32, 39, 44, 39, 34, 44, 10, 32, 32, 32, 32, 32, 32, 32, 32, 32, 32, 32, 32, 34, 118, 97, 108, 117, 101, 34, 58, 32, 34, 97, 44, 98, 34, 10, 32, 32, 32, 32, 32, 32, 32, 32, 125, 10, 32, 32, 32, 32, 93, 10, 125, 10], str "measurement_template", [(str "names", str "a,b")]⟩

/-- `src/services/timer/Timer.cpp`:216-229; `text` is
```
{
"name": "timer",
"description": "Record timestamps and time durations",
"config":
[
 {
  "name": "inclusive_duration",
  "type": "bool",
  "description": "Record inclusive duration of begin/end regions",
  "value": "false"
 }
]}
```
-/
def spec_timer : BSpec := ⟨[10, 123, 10, 34, 110, 97, 109, 101, 34, 58, 32, 34, 116, 105, 109, 101, 114, 34, 44, 10, 34, 100, 101, 115, 99, 114, 105, 112, 116, 105, 111, 110, 34, 58, 32, 34, 82, 101, 99, 111, 114, 100, 32, 116, 105, 109, 101, 115, 116, 97, 109, 112, 115, 32, 97, 110, 100, 32, 116, 105, 109, 101, 32, 100, 117, 114, 97, 116, 105, 111, 110, 115, 34, 44, 10, 34, 99, 111, 110, 102, 105, 103, 34, 58, 10, 91, 10, 32, 123, 10, 32, 32, 34, 110, 97, 109, 101, 34, 58, 32, 34, 105, 110, 99, 108, 117, 115, 105, 118, 101, 95, 100, 117, 114, 97, 116, 105, 111, 110, 34, 44, 10, 32, 32, 34, 116, 121, 112, 101, 34, 58, 32, 34, 98, 111, 111, 108, 34, 44, 10, 32, 32, 34, 100, 101, 115, 99, 114, 105, 112, 116, 105, 111, 110, 34, 58, 32, 34, 82, 101, 99, 111, 114, 100, 32, 105, 110, 99, 108, 117, 115, 105, 118, 101, 32, 100, 117, 114, 97, 116, 105, 111, 110, 32, 111, 102, 32, 98, 101, 103, 105, 110, 47, 101, 110, 100, 32, 114, 101, 103, 105, 111, 110, 115, 34, 44, 10, 32, 32, 34, 118, 97, 108, 117, 101, 34, 58, 32, 34, 102, 97, 108, 115, 101, 34, 10, 32, 125, 10, 93, 125, 10], str "timer", [(str "inclusive_duration", str "false")]⟩

/-- `src/services/timer/Timer.cpp`:231-236; `text` is
```
{
"name": "timestamp",
"description": "Deprecated name for 'timer' service"
}
```
-/
def spec_timestamp : BSpec := ⟨[10, 123, 10, 34, 110, 97, 109, 101, 34, 58, 32, 34, 116, 105, 109, 101, 115, 116, 97, 109, 112, 34, 44, 10, 34, 100, 101, 115, 99, 114, 105, 112, 116, 105, 111, 110, 34, 58, 32, 34, 68, 101, 112, 114, 101, 99, 97, 116, 101, 100, 32, 110, 97, 109, 101, 32, 102, 111, 114, 32, 39, 116, 105, 109, 101, 114, 39, 32, 115, 101, 114, 118, 105, 99, 101, 34, 10, 125, 10], str "timestamp", []⟩

/-- `src/services/trace/Trace.cpp`:333-351; `text` is
```
{
"name": "trace",
"description": "Store snapshots in trace buffer",
"config":
[
 {
  "name": "buffer_size",
  "description": "Size of initial per-thread trace buffer in MiB",
  "type": "uint",
  "value": "2"
 },{
  "name": "buffer_policy",
  "description": "What to do when the buffer is full ('flush', 'stop', 'grow')",
  "type": "string",
  "value": "grow"
 }
]}
```
-/
def spec_trace : BSpec := ⟨[10, 123, 10, 34, 110, 97, 109, 101, 34, 58, 32, 34, 116, 114, 97, 99, 101, 34, 44, 10, 34, 100, 101, 115, 99, 114, 105, 112, 116, 105, 111, 110, 34, 58, 32, 34, 83, 116, 111, 114, 101, 32, 115, 110, 97, 112, 115, 104, 111, 116, 115, 32, 105, 110, 32, 116, 114, 97, 99, 101, 32, 98, 117, 102, 102, 101, 114, 34, 44, 10, 34, 99, 111, 110, 102, 105, 103, 34, 58, 10, 91, 10, 32, 123, 10, 32, 32, 34, 110, 97, 109, 101, 34, 58, 32, 34, 98, 117, 102, 102, 101, 114, 95, 115, 105, 122, 101, 34, 44, 10, 32, 32, 34, 100, 101, 115, 99, 114, 105, 112, 116, 105, 111, 110, 34, 58, 32, 34, 83, 105, 122, 101, 32, 111, 102, 32, 105, 110, 105, 116, 105, 97, 108, 32, 112, 101, 114, 45, 116, 104, 114, 101, 97, 100, 32, 116, 114, 97, 99, 101, 32, 98, 117, 102, 102, 101, 114, 32, 105, 110, 32, 77, 105, 66, 34, 44, 10, 32, 32, 34, 116, 121, 112, 101, 34, 58, 32, 34, 117, 105, 110, 116, 34, 44, 10, 32, 32, 34, 118, 97, 108, 117, 101, 34, 58, 32, 34, 50, 34, 10, 32, 125, 44, 123, 10, 32, 32, 34, 110, 97, 109, 101, 34, 58, 32, 34, 98, 117, 102, 102, 101, 114, 95, 112, 111, 108, 105, 99, 121, 34, 44, 10, 32, 32, 34, 100, 101, 115, 99, 114, 105, 112, 116, 105, 111, 110, 34, 58, 32, 34, 87, 104, 97, 116, 32, 116, 111, 32, 100, 111, 32, 119, 104, 101, 110, 32, 116, 104, 101, 32, 98, 117, 102, 102, 101, 114, 32, 105, 115, 32, 102, 117, 108, 108, 32, 40, 39, 102, 108, 117, 115, 104, 39, 44, 32, 39, 115, 116, 111, 112, 39, 44, 32, 39, 103, 114, 111, 119, 39, 41, 34, 44, 10, 32, 32, 34, 116, 121, 112, 101, 34, 58, 32, 34, 115, 116, 114, 105, 110, 103, 34, 44, 10, 32, 32, 34, 118, 97, 108, 117, 101, 34, 58, 32, 34, 103, 114, 111, 119, 34, 10, 32, 125, 10, 93, 125, 10], str "trace", [(str "buffer_size", str "2"), (str "buffer_policy", str "grow")]⟩

/-- `src/services/umpire/UmpireStatistics.cpp`:228-250; `text` is
```
{
"name"        : "umpire",
"description" : "Record Umpire memory manager statistics",
"config"      :
[
 {
  "name": "per_allocator_statistics",
  "type": "bool",
  "description": "Include statistics for each Umpire allocator",
  "value": "false"
 },{
  "name": "allocator_filter",
  "type": "string"
  "description": "Umpire allocators to track",
 },{
  "name": "record_highwatermarks",
  "type": "bool",
  "description": "Record high-watermarks as global attributes",
  "value": "true"
 }
]}
```
-/
def spec_umpire : BSpec := ⟨[10, 123, 10, 34, 110, 97, 109, 101, 34, 32, 32, 32, 32, 32, 32, 32, 32, 58, 32, 34, 117, 109, 112, 105, 114, 101, 34, 44, 10, 34, 100, 101, 115, 99, 114, 105, 112, 116, 105, 111, 110, 34, 32, 58, 32, 34, 82, 101, 99, 111, 114, 100, 32, 85, 109, 112, 105, 114, 101, 32, 109, 101, 109, 111, 114, 121, 32, 109, 97, 110, 97, 103, 101, 114, 32, 115, 116, 97, 116, 105, 115, 116, 105, 99, 115, 34, 44, 10, 34, 99, 111, 110, 102, 105, 103, 34, 32, 32, 32, 32, 32, 32, 58, 10, 91, 10, 32, 123, 10, 32, 32, 34, 110, 97, 109, 101, 34, 58, 32, 34, 112, 101, 114, 95, 97, 108, 108, 111, 99, 97, 116, 111, 114, 95, 115, 116, 97, 116, 105, 115, 116, 105, 99, 115, 34, 44, 10, 32, 32, 34, 116, 121, 112, 101, 34, 58, 32, 34, 98, 111, 111, 108, 34, 44, 10, 32, 32, 34, 100, 101, 115, 99, 114, 105, 112, 116, 105, 111, 110, 34, 58, 32, 34, 73, 110, 99, 108, 117, 100, 101, 32, 115, 116, 97, 116, 105, 115, 116, 105, 99, 115, 32, 102, 111, 114, 32, 101, 97, 99, 104, 32, 85, 109, 112, 105, 114, 101, 32, 97, 108, 108, 111, 99, 97, 116, 111, 114, 34, 44, 10, 32, 32, 34, 118, 97, 108, 117, 101, 34, 58, 32, 34, 102, 97, 108, 115, 101, 34, 10, 32, 125, 44, 123, 10, 32, 32, 34, 110, 97, 109, 101, 34, 58, 32, 34, 97, 108, 108, 111, 99, 97, 116, 111, 114, 95, 102, 105, 108, 116, 101, 114, 34, 44, 10, 32, 32, 34, 116, 121, 112, 101, 34, 58, 32, 34, 115, 116, 114, 105, 110, 103, 34, 10, 32, 32, 34, 100, 101, 115, 99, 114, 105, 112, 116, 105, 111, 110, 34, 58, 32, 34, 85, 109, 112, 105, 114, 101, 32, 97, 108, 108, 111, 99, 97, 116, 111, 114, 115, 32, 116, 111, 32, 116, 114, 97, 99, 107, 34, 44, 10, 32, 125, 44, 123, 10, 32, 32, 34, 110, 97, 109, 101, 34, 58, 32, 34, 114, 101, 99, 111, 114, 100, 95, 104, 105, 103, 104, 119, 97, 116, 101, 114, 109, 97, 114, 107, 115, 34, 44, 10, 32, 32, 34, 116, 121, 112, 101, 34, 58, 32, 34, 98, 111, 111, 108, 34, 44, 10, 32, 32, 34, 100, 101, 115, 99, 114, 105, 112, 116, 105, 111, 110, 34, 58, 32, 34, 82, 101, 99, 111, 114, 100, 32, 104, 105, 103, 104, 45, 119, 97, 116, 101, 114, 109, 97, 114, 107, 115, 32, 97, 115, 32, 103, 108, 111, 98, 97, 108, 32, 97, 116, 116, 114, 105, 98, 117, 116, 101, 115, 34, 44, 10, 32, 32, 34, 118, 97, 108, 117, 101, 34, 58, 32, 34, 116, 114, 117, 101, 34, 10, 32, 125, 10, 93, 125, 10], str "umpire", [(str "per_allocator_statistics", str "false"), (str "allocator_filter", str ""), (str "record_highwatermarks", str "true")]⟩

/-- all services with a specification in JSON (`src/services/*/*.cpp`; the other services have just a name) -/
def builtinSpecs : List BSpec := [spec_loop_statistics, spec_adiak_import, spec_aggregate, spec_alloc, spec_allocstats, spec_callpath, spec_cupti, spec_cuptitrace, spec_async_event, spec_event, spec_ldms, spec_memstat, spec_loop_monitor, spec_region_monitor, spec_timeseries, spec_mpireport, spec_mpi, spec_papi, spec_perf_topdown, spec_recorder, spec_report, spec_rocprofiler, spec_roctx, spec_sampler, spec_symbollookup, spec_measurement_template, spec_timer, spec_timestamp, spec_trace, spec_umpire]

end Verif.Services
