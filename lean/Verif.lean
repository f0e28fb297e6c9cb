import Verif.EventStream.Props
import Verif.EventStream.TimestampProps
import Verif.Publisher.Props
import Verif.Publisher.ChainProps
import Verif.Publisher.ReceiverProps
import Verif.Retry.BackoffProps
import Verif.Retry.QuotaProps
import Verif.Retry.StrategyProps
import Verif.Readers.Props
import Verif.Provider.Props
import Verif.Pipeline.ChainProps
import Verif.Pipeline.Props
import Verif.Fields.Props
import Verif.HeaderText.Props
import Verif.HeaderText.Accept
import Verif.Uri.Query
import Verif.Uri.Path
import Verif.Uri.Dots
import Verif.Http.Props
import Verif.Http.UserAgent
import Verif.Shapes.ShapeId
import Verif.Shapes.ErrorCode
import Verif.Scalars.RetryAfter
import Verif.Scalars.SplitEvery
import Verif.Scalars.Float
import Verif.Http.Destination
import Verif.Uri.Host
import Verif.Uri.Build
import Verif.Shapes.Registry
import Verif.Http.Errors
import Verif.Identity.Cache
import Verif.Identity.Chain
import Verif.Identity.Assembly
import Verif.Identity.IpAddress
import Verif.Identity.Container
import Verif.Identity.TokenCache
import Verif.Signing.Query
import Verif.Signing.Props
import Verif.Signing.Verify
import Verif.Schemas.Properties
import Verif.Schemas.Schema
import Verif.Schemas.Document
import Verif.Schemas.DocumentShapes
import Verif.Numerals
import Verif.Json.Strings
import Verif.Json.Grammar
import Verif.Json.Decimal
import Verif.Json.Base64
import Verif.Json.Write
import Verif.Json.Read
import Verif.Json.ReadLemmas
import Verif.Json.ReadProps
import Verif.Json.Documents
import Verif.Pipeline.Streams
import Verif.Xml.Model
import Verif.Xml.Lemmas
import Verif.Xml.Strip
import Verif.Xml.Props
import Verif.AwsQuery.Model
import Verif.AwsQuery.Props
import Verif.Dict
import Verif.AwsConfig.Model
import Verif.AwsConfig.Parse
import Verif.AwsConfig.Props
import Verif.AwsConfig.Profiles
import Verif.AwsConfig.Settings
import Verif.Pipeline.Body
import Verif.Timestamps.Calendar
import Verif.Timestamps.Model
import Verif.Timestamps.Instant
import Verif.Timestamps.Digits
import Verif.Timestamps.Rfc3339
import Verif.Timestamps.HttpDate
import Verif.Http.HeaderValue
import Verif.Http.Response
import Verif.Http.RoundTrip
import Verif.Timestamps.Epoch
import Verif.EventStream.Shapes
import Verif.Transport.Body
import Verif.Transport.Aiohttp
import Verif.Transport.Crt
import Verif.Uri.Endpoint
import Verif.Xml.RoundTrip
import Verif.AwsQuery.RoundTrip
import Verif.Signing.Scheme
import Verif.Types.Enums
import Verif.Http.Serving
import Verif.Uri.Pattern
import Verif.Signing.Wire
import Verif.Identity.Default
import Verif.Identity.ContainerUrl
import Verif.Generated.Examples
import Verif.Retry.Resolver
import Verif.Client.Examples
import Verif.GeneratedSchemas.Examples
import Verif.GeneratedFiles.Names
import Verif.GeneratedFiles.Imports
import Verif.GeneratedFiles.Relative
import Verif.GeneratedAuth
import Verif.Literals
import Verif.TraitValues
import Verif.Retry.DynamoDb
import Verif.Http.RestJson
import Verif.GeneratedDocs
import Verif.GeneratedFiles.Order
import Verif.GeneratedConfig
import Verif.GeneratedSerde.Examples
import Verif.GeneratedSerde.AnyExamples
import Verif.Identity.Instance
import Verif.AwsConfig.Files
import Verif.Changelog.Examples
import Verif.TypeCodegen.Props
import Verif.Requirements
import Verif.Fields.Accept
import Verif.RestJson.Examples
import Verif.RestJson.RequestExamples
import Verif.RestJson.Answer
import Verif.QueryAnswer.Examples
import Verif.QueryRequest.Examples
import Verif.RestJson.PayloadExamples
import Verif.RestJson.AnswerPayload
import Verif.Retry.QuotaThreads
import Verif.RestJson.RequestPayload
import Verif.RestJson.RequestPayloadExamples
import Verif.GeneratedEnums
import Verif.ClientNames
import Verif.Transport.Mock
import Verif.GeneratedSerde.Nested
import Verif.Packaging
import Verif.InitFiles
import Verif.ClientPlugins
import Verif.ProtocolTests
import Verif.TestHeaders
import Verif.TestBodies
import Verif.TestCases
import Verif.TestResponses
import Verif.TestValues
