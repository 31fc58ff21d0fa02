import Verif.CharClass.Props
import Verif.Parser.Props
import Verif.Iso.DateProps
import Verif.Iso.Truncated
import Verif.Iso.Checks
import Verif.Iso.TimeProps
import Verif.Iso.StringProps
import Verif.Iso.TimeChecks
import Verif.Uri.EscapeProps
import Verif.Uri.PathProps
import Verif.Uri.UriProps
import Verif.Uri.Resolve
import Verif.Uri.Server
import Verif.Uri.Urn
import Verif.Http.Reparse
import Verif.Http.DateProps
import Verif.Streams.PipeClaims
import Verif.Streams.WrapperProps
import Verif.Blocks.Digest
import Verif.Blocks.Lock
import Verif.Blocks.StoreClaims
import Verif.Xsd.Lexical
import Verif.Http.Send
import Verif.Http.ByteRanges
import Verif.Http.Wrapper
import Verif.Cookie.Suffix
import Verif.Cookie.ParseProps
import Verif.OData.C62
import Verif.OData.FilterProps
import Verif.OData.Key
import Verif.OData.PagingProps
import Verif.OData.OrderBy
import Verif.MemDs.Orphans
import Verif.MemDs.Row
import Verif.Xml.Valid
import Verif.Xml.GenClaims
import Verif.Auth.Client
import Verif.Auth.Text
import Verif.Sql.Like
import Verif.Sql.Token
import Verif.Qti.Val
import Verif.Qti.Map
import Verif.Qti.Expr
import Verif.Qti.Types
import Verif.Qti.C91
import Verif.Qti.Logic
import Verif.Qti.Containers
import Verif.Qti.Numeric
import Verif.Qti.Numeric2
import Verif.Qti.Tables
import Verif.Qti.Process
import Verif.Qti.C96
import Verif.Qti.Session
import Verif.Qti.C97
import Verif.Qti.C97b
import Verif.Qti.C97c
import Verif.Html.Attr
import Verif.Sql.Tx
import Verif.Sql.Update
import Verif.Sql.Pool
import Verif.Sql.Literal
import Verif.Vfs.C105b
import Verif.Web.Static
import Verif.Web.Sign
import Verif.Web.Forge
import Verif.Lti.Roles
import Verif.Lti.C111
import Verif.Lti.Details
import Verif.Form.C113
import Verif.Form.Keys
import Verif.Form.Nav
import Verif.Form.Duration
import Verif.Ns.C118
import Verif.Pkg.C122
import Verif.Neg.C125
import Verif.Dom.Effects
import Verif.Dom.Find
import Verif.OUri.PathInfo
import Verif.OUri.C131
import Verif.OUri.C135
import Verif.Srv.Version
import Verif.Cli.C141
import Verif.Cli.C144
import Verif.Csdl.C146
import Verif.Text.C147
import Verif.Iso.C148
import Verif.Xml.C149
import Verif.Json.C150
import Verif.Http.TokenLists
import Verif.Xsd.RegexGrammar
import Verif.Xsd.Enum
import Verif.Http.Version
import Verif.OData.Methods
import Verif.Qti.Region
import Verif.Http.ServerRead
import Verif.Compat.AttrName
import Verif.Compat.Migrate
import Verif.Qti1.RespProc
import Verif.Qti1.Cond
import Verif.Qti1.SetVar
import Verif.Qti1.Area
import Verif.Dom.Inherit
import Verif.Dom.Canon
import Verif.Web.Context
import Verif.Http.Target
import Verif.Audit
