import Verif.Py
import Verif.Props.ChainMap
import Verif.Props.Registry
import Verif.Props.Mro
import Verif.Props.Topo
import Verif.Props.Brackets
import Verif.Props.Doc
import Verif.Props.Counter
import Verif.Props.Blocks
import Verif.Props.Strings
import Verif.Props.Decor
import Verif.Props.Names
import Verif.Props.Uri
import Verif.Props.Query
import Verif.Props.QueryObj
import Verif.Props.Types
import Verif.Props.Session
import Verif.Props.Files
import Verif.Props.Xml
import Verif.Props.Repo
import Verif.Props.Builder
import Verif.Props.Array
import Verif.Props.Object
import Verif.Props.Classes
import Verif.Props.Compare
import Verif.Props.Shared
import Verif.Props.Alias
import Verif.Props.AliasOut
import Verif.Props.Equality
import Verif.Props.Copy
import Verif.Props.Paths
import Verif.Props.Validate
import Verif.Props.Keys
import Verif.Props.Literal
import Verif.Props.Temporal
import Verif.Props.Symbols
import Verif.Props.Ids
import Verif.Props.Nested
import Verif.Props.Defaults
import Verif.Props.Loading
import Verif.Props.Making
import Verif.Props.Storing
import Verif.Props.Show
import Verif.Props.Mixins
import Verif.Props.Walk
import Verif.Props.Relations
import Verif.Props.Tools
import Verif.Props.Entities
import Verif.Props.Access
import Verif.Props.XmlNs
import Verif.Props.Pointers
import Verif.Props.Refs
import Verif.Props.Keywords
import Verif.Props.XmlStream
import Verif.Props.Search
import Verif.Props.Check
import Verif.Props.Listing
import Verif.Props.Repr
import Verif.Props.Meta
import Verif.Props.PathCheck
import Verif.Props.Setters
import Verif.Props.Documents
import Verif.Props.Getting
import Verif.Props.ClassProps
import Verif.Props.Operators
import Verif.Props.Logged
import Verif.Props.Layouts
import Verif.Props.XmlValues
import Verif.Props.Defining
import Verif.Props.Given
import Verif.Props.Labels
import Verif.Props.Qualnames
import Verif.Props.Writing
import Verif.Props.XmlOptions
import Verif.Props.XmlWriter
import Verif.Props.XmlSpace
import Verif.Props.XmlKeys
import Verif.Props.Proxy
import Verif.Props.ObjDefault
import Verif.Props.Instances
import Verif.Props.Living
import Verif.Props.Belonging
import Verif.Props.LogConfig
import Verif.Props.Managers
import Verif.Props.Modules
