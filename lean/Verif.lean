import Verif.BigInt.Props
import Verif.VM.Props
import Verif.VM.Props2
import Verif.VM.Props3
import Verif.VM.Props4
import Verif.VM.NumberProps
import Verif.VM.Calls
import Verif.Encoding.Props
import Verif.Uuid.Props
import Verif.Bits.Props
import Verif.Semver.Props
import Verif.Semver.Valid
import Verif.Strings.Props
import Verif.Value.Props
import Verif.Collections.Props
import Verif.Collections.Sets
import Verif.Collections.Order
import Verif.Collections.Subset
import Verif.Collections.Walk
import Verif.Graph.Model
import Verif.Graph.Spec
import Verif.Graph.Lemmas
import Verif.Graph.Props
import Verif.Binary.Model
import Verif.Binary.Crc
import Verif.Binary.Spec
import Verif.Binary.Parse
import Verif.Binary.RoundTrip
import Verif.Binary.Load
import Verif.Binary.Header
import Verif.Binary.Props
import Verif.Binary.Witness
import Verif.Glob.Model
import Verif.Glob.Spec
import Verif.Glob.Lemmas
import Verif.Glob.Search
import Verif.Glob.Props
import Verif.Json.Model
import Verif.Json.Spec
import Verif.Json.Lemmas
import Verif.Json.Walk
import Verif.Json.Props
import Verif.Json.Dedup
import Verif.Json.Filter
import Verif.Json.FilterProps
import Verif.Registry.Tree
import Verif.Registry.Table
import Verif.Registry.Names
import Verif.Registry.Lookup
import Verif.Registry.Sound
import Verif.Registry.NameLemmas
import Verif.Registry.NameProps
import Verif.Registry.Model
import Verif.Registry.Spec
import Verif.Registry.Lemmas
import Verif.Registry.Props
import Verif.Registry.Stable
import Verif.CApi.Text
import Verif.CApi.Input
import Verif.CApi.Spec
import Verif.CApi.Lemmas
import Verif.CApi.Props
import Verif.Interp.Model
import Verif.Interp.Props
import Verif.DepGraph.Props
import Verif.Globs.Props
import Verif.Jwt.Props
import Verif.Time.Props
import Verif.Time.DurProps
import Verif.Units.Props
import Verif.Uri.Props
import Verif.Core.NumProps
import Verif.Core.TextProps
import Verif.Core.TemplateProps
import Verif.Copy.Props
import Verif.Compile.Props
import Verif.Compile.CacheProps
import Verif.Store.Props
import Verif.Store.CodeProps
import Verif.Output.Props
import Verif.Output.InputProps
import Verif.Parse.Props
import Verif.Parse.LexProps
import Verif.Operators.Props
import Verif.Operators.ArithProps
import Verif.Double.Props
import Verif.Unify.Cases
import Verif.Unify.ClassifyCases
import Verif.Heads.Cases
import Verif.Merge.Cases
import Verif.Mock.Cases
import Verif.Template.Props
import Verif.Marshal.Props
import Verif.Rand.Props
import Verif.Regex.Props
import Verif.Docs.Props
import Verif.Refs.Props
import Verif.Dynamic.Props
import Verif.Nested.Props
import Verif.Nested.StaticProps
import Verif.Locals.Props
import Verif.Locals.Run
import Verif.Index.Props
import Verif.EntryName.Props
import Verif.Scan.Cases
