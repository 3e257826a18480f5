import Verif.Case.Model
/- The assertions of the tests case.rs:108-…, otel.rs:1880-1950, 2488-2517, on the model. -/
namespace Verif.Case

example : convert .kebabCase "Hello World".toList = "hello-world".toList := by decide +kernel
example : convert .lowerCase "Hello World".toList = "hello world".toList := by decide +kernel
example : convert .upperCase "v8js.heap.space.name".toList = "V8JS HEAP SPACE NAME".toList := by decide +kernel
example : convert .upperCase "http.request.resend_count".toList = "HTTP REQUEST RESEND COUNT".toList := by decide +kernel
example : convert .titleCase "Hello World".toList = "Hello World".toList := by decide +kernel
example : convert .camelCase "host.cpu.cache.l2.size".toList = "hostCpuCacheL2Size".toList := by decide +kernel
example : convert .camelCase "nodejs.eventloop.delay.p99".toList = "nodejsEventloopDelayP99".toList := by decide +kernel
example : convert .pascalCase "v8js.heap.space.name".toList = "V8jsHeapSpaceName".toList := by decide +kernel
example : convert .pascalCase "HTTP.request.resend_count".toList = "HttpRequestResendCount".toList := by decide +kernel
example : convert .screamingSnakeCase "k8s.job.name".toList = "K8S_JOB_NAME".toList := by decide +kernel
example : capitalizeFirst "Hello WORLD".toList = "Hello WORLD".toList := by decide +kernel
example : convertConst .kebabCase "messaging.client_id".toList = "messaging-clientid".toList := by decide +kernel
example : convertConst .camelCase "messaging.client_id".toList = "messagingClientid".toList := by decide +kernel
example : convertConst .snakeCase "TestName".toList = "test_name".toList := by decide +kernel
example : convertConst .pascalCase [] = [] := by decide +kernel

end Verif.Case
