import Verif.Common
import Verif.Base64.Props
import Verif.Base64.Exact
import Verif.Ws.Props
import Verif.Ws.Exact
import Verif.Endpoint.Props
import Verif.Endpoint.Exact
import Verif.Endpoint.CloseExact
import Verif.Endpoint.CloseCuts
import Verif.Endpoint.StopExact
import Verif.Sha1.Props
import Verif.Cookies.Props
import Verif.Handshake.Props
import Verif.Handshake.DropExact
import Verif.Promise.Props
import Verif.MapStore.Props
import Verif.Context.Props
import Verif.Delta.Props
import Verif.Delta.Exact
import Verif.Message.Props
import Verif.Bind.Props
import Verif.Hash.Props
import Verif.Ws.Stream
import Verif.Ws.Masked
import Verif.Entity.Props
import Verif.Held.Props
import Verif.Held.Exact
import Verif.Held.RerunExact
import Verif.Session.Props
import Verif.Session.FarewellProps
import Verif.Session.FarewellExact
import Verif.Relay.Props
import Verif.Async.ReleaseProps
import Verif.Message.Keys
import Verif.Message.KeysExact
import Verif.Tiles.PlayProps
import Verif.Tests.Tiles
import Verif.Link.FarewellProps
import Verif.Link.FarewellExact
import Verif.Link.CloseExact
import Verif.Link.ConvExact
import Verif.Base64.Long
import Verif.Cond.Props
import Verif.Pipes.Props
import Verif.Pipes.Exact
import Verif.Async.Props
import Verif.Optimist.Props
import Verif.Optimist.Exact
import Verif.SqlDb.Props
import Verif.SqlDb.Exact
import Verif.SqlDb.StoreExact
import Verif.Lifetime.Props
import Verif.Lifetime.Exact
import Verif.Refs.Props
import Verif.Refs.Exact
import Verif.Page.Props
import Verif.Page.Exact
import Verif.Nested.Props
import Verif.Nested.Exact
import Verif.Nested.Turn
import Verif.Nested.Sent
import Verif.Nested.Served
import Verif.Nested.Finite
import Verif.Nested.Endless
import Verif.ClassReader.Props
import Verif.Alias.Props
import Verif.Alias.Exact
import Verif.App.Props
import Verif.App.Exact
import Verif.Reader.Props
import Verif.Link.Props
import Verif.Macros.Props
import Verif.Macros.Exact
import Verif.Replica.Props
import Verif.Replica.Exact
import Verif.PathPromise.Props
import Verif.DeserJs.Props
import Verif.DeserJs.Exact
import Verif.ApiSig.Props
import Verif.ApiSig.Exact
import Verif.HoldLazy.Props
import Verif.HoldLazy.Exact
import Verif.MakeContext.Props
import Verif.MakeContext.Exact
import Verif.Uid.Props
import Verif.JsPromise.Props
import Verif.JsPromise.Exact
import Verif.WsApi.Props
import Verif.WsApi.Exact
import Verif.Events.Props
import Verif.Events.Exact
import Verif.UiPath.Props
import Verif.UiPath.Exact
import Verif.Server.Props
import Verif.Server.AcceptExact
import Verif.Server.Broadcast
import Verif.Server.JsExact
import Verif.JsVal.Props
import Verif.JsVal.Exact
import Verif.ClientJs.Props
import Verif.JsBind.Props
import Verif.JsBind.Refused
import Verif.StoreDef.Props
import Verif.Dsl.Props
import Verif.Nav.Props
import Verif.Nav.Exact
import Verif.RawMsg.Props
import Verif.RawMsg.ConnectExact
import Verif.RawMsg.Exact
import Verif.Dom.Props
import Verif.Dom.Exact
import Verif.Dom.Right
import Verif.Sql.Props
import Verif.Sql.Exact
import Verif.Sql.Moved
import Verif.Keys.Props
import Verif.Route.Props
import Verif.Path.Props
import Verif.Path.Layers
import Verif.Path.Steps
import Verif.Mpdef.Props
import Verif.Def.Props
import Verif.Def.Exact
import Verif.Variant.Props
import Verif.Concat.Props
import Verif.Concat.Exact
import Verif.Address.Props
import Verif.Address.Exact
import Verif.Params.Props
import Verif.Tiles.Props
import Verif.Tiles.Exact
import Verif.Deser.Props
import Verif.Tests.Bytes
import Verif.Tests.Core
import Verif.Tests.Json
import Verif.Tests.SpecLang
import Verif.Tests.Stores
import Verif.Tests.Web
import Verif.Tests.Defs
import Verif.Tests.Sql
import Verif.Tests.Helpers
import Verif.MpList.Props
import Verif.Holder.Props
import Verif.TupleLike.Props
import Verif.Print.Props
import Verif.WebSpec.Props
import Verif.WebSpec.Exact
import Verif.Screen.Props
import Verif.Screen.Exact
import Verif.Screen.Json
import Verif.TupleLike.BindProps
import Verif.TupleLike.TypedProps
