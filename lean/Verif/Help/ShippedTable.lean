import Verif.Help.Model
/-!
# The help texts of the marker types of controller-gen: `zz_generated.markerhelp.go` of `/repo/pkg/crd/markers`, `/repo/pkg/webhook` and `/repo/pkg/rbac`
-/
namespace Verif.Help.Shipped
open Markers (Str)

/-- A value of `DefinitionHelp`: category, summary, details, and name, summary and details for each field. -/
def help (category summary details : String) (fields : List (String × String × String)) : DefHelp where
  text := ⟨summary.toList, details.toList⟩
  category := category.toList
  fieldHelp := fields.map fun f => (f.1.toList, ⟨f.2.1.toList, f.2.2.toList⟩)

/-- The methods `Help`, by type (crd/markers/zz_generated.markerhelp.go:27-588, webhook/zz_generated.markerhelp.go:27-149, rbac/zz_generated.markerhelp.go:55-89). -/
def typeHelps : List (String × DefHelp) := [
  ("Default", help "CRD validation" "sets the default value for this field." "A default value will be accepted as any value valid for the\nfield. Formatting for common types include: boolean: `true`, string:\n`Cluster`, numerical: `1.24`, array: `{1,2}`, object: `{policy:\n\"delete\"}`). Defaults should be defined in pruned form, and only best-effort\nvalidation will be performed. Full validation of a default requires\nsubmission of the containing CRD to an apiserver." [
      ("Value", "", "")]),
  ("DeprecatedVersion", help "CRD" "marks this version as deprecated." "" [
      ("Warning", "message to be shown on the deprecated version", "")]),
  ("Enum", help "CRD validation" "specifies that this (scalar) field is restricted to the *exact* values specified here." "" []),
  ("Example", help "CRD validation" "sets the example value for this field." "An example value will be accepted as any value valid for the\nfield. Formatting for common types include: boolean: `true`, string:\n`Cluster`, numerical: `1.24`, array: `{1,2}`, object: `{policy:\n\"delete\"}`). Examples should be defined in pruned form, and only best-effort\nvalidation will be performed. Full validation of an example requires\nsubmission of the containing CRD to an apiserver." [
      ("Value", "", "")]),
  ("ExclusiveMaximum", help "CRD validation" "indicates that the maximum is \"up to\" but not including that value." "" []),
  ("ExclusiveMinimum", help "CRD validation" "indicates that the minimum is \"up to\" but not including that value." "" []),
  ("Format", help "CRD validation" "specifies additional \"complex\" formatting for this field." "For example, a date-time field would be marked as \"type: string\" and\n\"format: date-time\"." []),
  ("KubernetesDefault", help "CRD validation" "Default sets the default value for this field." "A default value will be accepted as any value valid for the field.\nOnly JSON-formatted values are accepted. `ref(...)` values are ignored.\nFormatting for common types include: boolean: `true`, string:\n`\"Cluster\"`, numerical: `1.24`, array: `[1,2]`, object: `{\"policy\":\n\"delete\"}`). Defaults should be defined in pruned form, and only best-effort\nvalidation will be performed. Full validation of a default requires\nsubmission of the containing CRD to an apiserver." [
      ("Value", "", "")]),
  ("ListMapKey", help "CRD processing" "specifies the keys to map listTypes." "It indicates the index of a map list. They can be repeated if multiple keys\nmust be used. It can only be used when ListType is set to map, and the keys\nshould be scalar types." []),
  ("ListType", help "CRD processing" "specifies the type of data-structure that the list" "represents (map, set, atomic).\n\nPossible data-structure types of a list are:\n\n  - \"map\": it needs to have a key field, which will be used to build an\n    associative list. A typical example is a the pod container list,\n    which is indexed by the container name.\n\n  - \"set\": Fields need to be \"scalar\", and there can be only one\n    occurrence of each.\n\n  - \"atomic\": All the fields in the list are treated as a single value,\n    are typically manipulated together by the same actor." []),
  ("MapType", help "CRD processing" "specifies the level of atomicity of the map;" "i.e. whether each item in the map is independent of the others,\nor all fields are treated as a single unit.\n\nPossible values:\n\n  - \"granular\": items in the map are independent of each other,\n    and can be manipulated by different actors.\n    This is the default behavior.\n\n  - \"atomic\": all fields are treated as one unit.\n    Any changes have to replace the entire map." []),
  ("MaxItems", help "CRD validation" "specifies the maximum length for this list." "" []),
  ("MaxLength", help "CRD validation" "specifies the maximum length for this string." "" []),
  ("MaxProperties", help "CRD validation" "restricts the number of keys in an object" "" []),
  ("Maximum", help "CRD validation" "specifies the maximum numeric value that this field can have." "" []),
  ("Metadata", help "CRD" "configures the additional annotations or labels for this CRD." "For example adding annotation \"api-approved.kubernetes.io\" for a CRD with Kubernetes groups,\nor annotation \"cert-manager.io/inject-ca-from-secret\" for a CRD that needs CA injection." [
      ("Annotations", "will be added into the annotations of this CRD.", ""),
      ("Labels", "will be added into the labels of this CRD.", "")]),
  ("MinItems", help "CRD validation" "specifies the minimum length for this list." "" []),
  ("MinLength", help "CRD validation" "specifies the minimum length for this string." "" []),
  ("MinProperties", help "CRD validation" "restricts the number of keys in an object" "" []),
  ("Minimum", help "CRD validation" "specifies the minimum numeric value that this field can have. Negative numbers are supported." "" []),
  ("MultipleOf", help "CRD validation" "specifies that this field must have a numeric value that's a multiple of this one." "" []),
  ("Nullable", help "CRD validation" "marks this field as allowing the \"null\" value." "This is often not necessary, but may be helpful with custom serialization." []),
  ("Pattern", help "CRD validation" "specifies that this string must match the given regular expression." "" []),
  ("PrintColumn", help "CRD" "adds a column to \"kubectl get\" output for this CRD." "" [
      ("Name", "specifies the name of the column.", ""),
      ("Type", "indicates the type of the column.", "It may be any OpenAPI data type listed at\nhttps://github.com/OAI/OpenAPI-Specification/blob/master/versions/2.0.md#data-types."),
      ("JSONPath", "specifies the jsonpath expression used to extract the value of the column.", ""),
      ("Description", "specifies the help/description for this column.", ""),
      ("Format", "specifies the format of the column.", "It may be any OpenAPI data format corresponding to the type, listed at\nhttps://github.com/OAI/OpenAPI-Specification/blob/master/versions/2.0.md#data-types."),
      ("Priority", "indicates how important it is that this column be displayed.", "Lower priority (*higher* numbered) columns will be hidden if the terminal\nwidth is too small.")]),
  ("Resource", help "CRD" "configures naming and scope for a CRD." "" [
      ("Path", "specifies the plural \"resource\" for this CRD.", "It generally corresponds to a plural, lower-cased version of the Kind.\nSee https://book.kubebuilder.io/cronjob-tutorial/gvks.html."),
      ("ShortName", "specifies aliases for this CRD.", "Short names are often used when people have work with your resource\nover and over again.  For instance, \"rs\" for \"replicaset\" or\n\"crd\" for customresourcedefinition."),
      ("Categories", "specifies which group aliases this resource is part of.", "Group aliases are used to work with groups of resources at once.\nThe most common one is \"all\" which covers about a third of the base\nresources in Kubernetes, and is generally used for \"user-facing\" resources."),
      ("Singular", "overrides the singular form of your resource.", "The singular form is otherwise defaulted off the plural (path)."),
      ("Scope", "overrides the scope of the CRD (Cluster vs Namespaced).", "Scope defaults to \"Namespaced\".  Cluster-scoped (\"Cluster\") resources\ndon't exist in namespaces.")]),
  ("Schemaless", help "CRD validation" "marks a field as being a schemaless object." "Schemaless objects are not introspected, so you must provide\nany type and validation information yourself. One use for this\ntag is for embedding fields that hold JSONSchema typed objects.\nBecause this field disables all type checking, it is recommended\nto be used only as a last resort." []),
  ("SelectableField", help "CRD" "adds a field that may be used with field selectors." "" [
      ("JSONPath", "specifies the jsonpath expression which is used to produce a field selector value.", "")]),
  ("SkipVersion", help "CRD" "removes the particular version of the CRD from the CRDs spec." "This is useful if you need to skip generating and listing version entries\nfor 'internal' resource versions, which typically exist if using the\nKubernetes upstream conversion-gen tool." []),
  ("StorageVersion", help "CRD" "marks this version as the \"storage version\" for the CRD for conversion." "When conversion is enabled for a CRD (i.e. it's not a trivial-versions/single-version CRD),\none version is set as the \"storage version\" to be stored in etcd.  Attempting to store any\nother version will result in conversion to the storage version via a conversion webhook." []),
  ("StructType", help "CRD processing" "specifies the level of atomicity of the struct;" "i.e. whether each field in the struct is independent of the others,\nor all fields are treated as a single unit.\n\nPossible values:\n\n  - \"granular\": fields in the struct are independent of each other,\n    and can be manipulated by different actors.\n    This is the default behavior.\n\n  - \"atomic\": all fields are treated as one unit.\n    Any changes have to replace the entire struct." []),
  ("SubresourceScale", help "CRD" "enables the \"/scale\" subresource on a CRD." "" [
      ("SpecPath", "specifies the jsonpath to the replicas field for the scale's spec.", ""),
      ("StatusPath", "specifies the jsonpath to the replicas field for the scale's status.", ""),
      ("SelectorPath", "specifies the jsonpath to the pod label selector field for the scale's status.", "The selector field must be the *string* form (serialized form) of a selector.\nSetting a pod label selector is necessary for your type to work with the HorizontalPodAutoscaler.")]),
  ("SubresourceStatus", help "CRD" "enables the \"/status\" subresource on a CRD." "" []),
  ("Title", help "CRD validation" "sets the title for this field." "The title is metadata that makes the OpenAPI documentation more user-friendly,\nmaking the schema more understandable when viewed in documentation tools.\nIt's a metadata field that doesn't affect validation but provides\nimportant context about what the schema represents." [
      ("Value", "", "")]),
  ("Type", help "CRD validation" "overrides the type for this field (which defaults to the equivalent of the Go type)." "This generally must be paired with custom serialization.  For example, the\nmetav1.Time field would be marked as \"type: string\" and \"format: date-time\"." []),
  ("UniqueItems", help "CRD validation" "specifies that all items in this list must be unique." "" []),
  ("UnservedVersion", help "CRD" "does not serve this version." "This is useful if you need to drop support for a version in favor of a newer version." []),
  ("XEmbeddedResource", help "CRD validation" "EmbeddedResource marks a fields as an embedded resource with apiVersion, kind and metadata fields." "An embedded resource is a value that has apiVersion, kind and metadata fields.\nThey are validated implicitly according to the semantics of the currently\nrunning apiserver. It is not necessary to add any additional schema for these\nfield, yet it is possible. This can be combined with PreserveUnknownFields." []),
  ("XIntOrString", help "CRD validation" "IntOrString marks a fields as an IntOrString." "This is required when applying patterns or other validations to an IntOrString\nfield. Known information about the type is applied during the collapse phase\nand as such is not normally available during marker application." []),
  ("XPreserveUnknownFields", help "CRD processing" "PreserveUnknownFields stops the apiserver from pruning fields which are not specified." "By default the apiserver drops unknown fields from the request payload\nduring the decoding step. This marker stops the API server from doing so.\nIt affects fields recursively, but switches back to normal pruning behaviour\nif nested  properties or additionalProperties are specified in the schema.\nThis can either be true or undefined. False\nis forbidden.\n\nNB: The kubebuilder:validation:XPreserveUnknownFields variant is deprecated\nin favor of the kubebuilder:pruning:PreserveUnknownFields variant.  They function\nidentically." []),
  ("XValidation", help "CRD validation" "marks a field as requiring a value for which a given" "expression evaluates to true.\n\nThis marker may be repeated to specify multiple expressions, all of\nwhich must evaluate to true." [
      ("Rule", "", ""),
      ("Message", "", ""),
      ("MessageExpression", "", ""),
      ("Reason", "", ""),
      ("FieldPath", "", ""),
      ("OptionalOldSelf", "", "")]),
  ("webhook.Config", help "Webhook" "specifies how a webhook should be served." "It specifies only the details that are intrinsic to the application serving\nit (e.g. the resources it can handle, or the path it serves on)." [
      ("Mutating", "marks this as a mutating webhook (it's validating only if false)", "Mutating webhooks are allowed to change the object in their response,\nand are called *before* all validating webhooks.  Mutating webhooks may\nchoose to reject an object, similarly to a validating webhook."),
      ("FailurePolicy", "specifies what should happen if the API server cannot reach the webhook.", "It may be either \"ignore\" (to skip the webhook and continue on) or \"fail\" (to reject\nthe object in question)."),
      ("MatchPolicy", "defines how the \"rules\" list is used to match incoming requests.", "Allowed values are \"Exact\" (match only if it exactly matches the specified rule)\nor \"Equivalent\" (match a request if it modifies a resource listed in rules, even via another API group or version)."),
      ("SideEffects", "specify whether calling the webhook will have side effects.", "This has an impact on dry runs and `kubectl diff`: if the sideEffect is \"Unknown\" (the default) or \"Some\", then\nthe API server will not call the webhook on a dry-run request and fails instead.\nIf the value is \"None\", then the webhook has no side effects and the API server will call it on dry-run.\nIf the value is \"NoneOnDryRun\", then the webhook is responsible for inspecting the \"dryRun\" property of the\nAdmissionReview sent in the request, and avoiding side effects if that value is \"true.\""),
      ("TimeoutSeconds", "allows configuring how long the API server should wait for a webhook to respond before treating the call as a failure.", "If the timeout expires before the webhook responds, the webhook call will be ignored or the API call will be rejected based on the failure policy.\nThe timeout value must be between 1 and 30 seconds.\nThe timeout for an admission webhook defaults to 10 seconds."),
      ("Groups", "specifies the API groups that this webhook receives requests for.", ""),
      ("Resources", "specifies the API resources that this webhook receives requests for.", ""),
      ("Verbs", "specifies the Kubernetes API verbs that this webhook receives requests for.", "Only modification-like verbs may be specified.\nMay be \"create\", \"update\", \"delete\", \"connect\", or \"*\" (for all)."),
      ("Versions", "specifies the API versions that this webhook receives requests for.", ""),
      ("Name", "indicates the name of this webhook configuration. Should be a domain with at least three segments separated by dots", ""),
      ("ServiceName", "indicates the name of the K8s Service the webhook uses.", ""),
      ("ServiceNamespace", "indicates the namespace of the K8s Service the webhook uses.", ""),
      ("Path", "specifies that path that the API server should connect to this webhook on. Must be", "prefixed with a '/validate-' or '/mutate-' depending on the type, and followed by\n$GROUP-$VERSION-$KIND where all values are lower-cased and the periods in the group\nare substituted for hyphens. For example, a validating webhook path for type\nbatch.tutorial.kubebuilder.io/v1,Kind=CronJob would be\n/validate-batch-tutorial-kubebuilder-io-v1-cronjob"),
      ("ServicePort", "indicates the port of the K8s Service the webhook uses", ""),
      ("WebhookVersions", "specifies the target API versions of the {Mutating,Validating}WebhookConfiguration objects", "itself to generate. The only supported value is v1. Defaults to v1."),
      ("AdmissionReviewVersions", "is an ordered list of preferred `AdmissionReview`", "versions the Webhook expects."),
      ("ReinvocationPolicy", "allows mutating webhooks to request reinvocation after other mutations", "To allow mutating admission plugins to observe changes made by other plugins,\nbuilt-in mutating admission plugins are re-run if a mutating webhook modifies\nan object, and mutating webhooks can specify a reinvocationPolicy to control\nwhether they are reinvoked as well."),
      ("URL", "allows mutating webhooks configuration to specify an external URL when generating", "the manifests, instead of using the internal service communication. Should be in format of\nhttps://address:port/path\nWhen this option is specified, the serviceConfig.Service is removed from webhook the manifest.\nThe URL configuration should be between quotes.\n`url` cannot be specified when `path` is specified.")]),
  ("webhook.WebhookConfig", help "" "" "" [
      ("Mutating", "marks this as a mutating webhook (it's validating only if false)", "Mutating webhooks are allowed to change the object in their response,\nand are called *before* all validating webhooks.  Mutating webhooks may\nchoose to reject an object, similarly to a validating webhook."),
      ("Name", "indicates the name of the K8s MutatingWebhookConfiguration or ValidatingWebhookConfiguration object.", "")]),
  ("rbac.Rule", help "RBAC" "specifies an RBAC rule to all access to some resources or non-resource URLs." "" [
      ("Groups", "specifies the API groups that this rule encompasses.", ""),
      ("Resources", "specifies the API resources that this rule encompasses.", ""),
      ("ResourceNames", "specifies the names of the API resources that this rule encompasses.", "Create requests cannot be restricted by resourcename, as the object's name\nis not known at authorization time."),
      ("Verbs", "specifies the (lowercase) kubernetes API verbs that this rule encompasses.", ""),
      ("URLs", "URL specifies the non-resource URLs that this rule encompasses.", ""),
      ("Namespace", "specifies the scope of the Rule.", "If not set, the Rule belongs to the generated ClusterRole.\nIf set, the Rule belongs to a Role, whose namespace is specified by this field.")])]

end Verif.Help.Shipped
